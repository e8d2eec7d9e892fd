# Design: a Lean 4 model of SymbolicMath.go

Source: `/repo` (read as text only, never built or run). Model and proofs: `/verif/lean/Verif`.

## 1. Trusted base

* The Lean 4 kernel, and Mathlib as installed.
* Axioms: every property theorem depends on at most `propext`, `Classical.choice`, `Quot.sound`.
  No axiom is added, there is no `sorry`, no `native_decide`, no `bv_decide`.
* The hand translation from Go to Lean. Each model definition cites the Go file and lines.
* The specification (`Verif/Spec.lean`), which is small and refers to Mathlib's
  `MvPolynomial`, not to model helpers.

### What is modelled

* `float64`: the model is written over an abstract interface `GoNum R` (zero, one, +, *, -, /,
  `==`, `<`, `<=`, int conversion). Theorems about *structure* (panics, shapes, indices,
  variables, identity, aliasing) are proved for **every** `GoNum R`, with no algebraic laws, so
  they also cover IEEE arithmetic with NaN and infinities. Theorems about *values* are proved for
  every linearly ordered field `R` with exact arithmetic. `Model/Binary64.lean` is IEEE binary64 with
  rounding to nearest even, subnormals, overflow, infinities and NaN (`-0` identified with `0`; C85 adds the two zeros); C58
  proves when runs on it coincide with exact runs, so that the value theorems apply to it.
* `int` exponents are `Int`, `uint64` IDs and `int` indices/lengths are `Nat`/`Int`: no wrap-around.
  `Model/Machine.lean` is the scalar model once more with exponents and degrees that wrap around; C81
  proves when the two agree.
* Go panics and failed type assertions are values: `Go α = Except Err α`.
* Slices are lists (values). In addition `Model/Heap.lean` models the aliasing of `Exponents`
  slices, where the code writes through a shared slice, and `Model/HeapAll.lean` the same for all kinds
  of expressions with the memory a recovered panic leaves behind; `Model/Env.lean` models the data races
  of `NewVariable`, and `Model/Share.lean` those of `append` inside `Monomial.Multiply`.
  `Model/Slice.lean` models slice headers (base, length, capacity) over a memory of variables, for
  the in-place `append` of `Monomial.Multiply` in sequential programs (C51).
* `interface{}` arguments: operations between expressions take the sum types `Scalar`, `Vec`, `Mat`
  and `Expr` (one constructor per Go type). Operations with `float64`, `int`, `mat.VecDense`,
  `*mat.VecDense`, `mat.Dense`, `*mat.Dense` or any other argument are modelled in `Model/Args.lean`
  (one `case` of the Go switch per pattern) and related to the former by C48.
* Go maps are association lists; iteration order is an explicit parameter.
* Environments are values named by a number (pointer identity).

### What is not modelled

The algorithms of `strconv` (C53 takes the `%v` format of a `float64` as a parameter; C84 uses the
specification of the shortest format that reads back, and identifies -0 with 0; C85 treats both zeros), rounding errors of
array programs with substitutions (C69, C70, C72, C73 and C83 bound those of single calls and of scalar
programs), overflow of integers other than exponents and degrees, memory exhaustion, gonum itself
(`mat.VecDense` and `mat.Dense` are lists of numbers), reflection-only helpers. In most of the model an
error is only its kind; the texts of error messages are the subject of C67.

## 2. Structure

| file | content |
|---|---|
| `Verif/Model/*.lean` | the model, function by function |
| `Verif/Spec.lean` | denotations in `MvPolynomial ℕ R`, satisfaction of constraints |
| `Verif/Lemmas/*.lean` | helper lemmas |
| `Verif/Props/*.lean` | property theorems, with `example` witnesses beside each |
| `Verif/Tests/*.lean` | the library's own unit tests, evaluated on the model |

The meaning of a scalar expression is the element `⟦e⟧` of `MvPolynomial ℕ R` where variable `x`
is the indeterminate `X x.ID`. Equality there is stronger than equality of values at all
assignments, and Mathlib supplies independent definitions of sum, product, `pderiv`, `bind₁`,
`coeff`, `totalDegree`, `vars` and `eval`.

*Well formed* (`Canon`): what the library itself produces: as many exponents as factors, exponents
>= 1, factors with distinct IDs, valid bounds; a polynomial has at least one term.

*Rearrangement-free* set `D` of exponent vectors: no two different members have the same support
and the same multiset of exponents. `Monomial.MatchesFormOf` compares exponents by position and
not by variable, so `x^2*y` and `y^2*x` may be merged. All value theorems hold for terms drawn
from a rearrangement-free set. Linear and quadratic expressions (total degree <= 2), univariate
expressions and multilinear ones are always rearrangement-free, so they need no side condition.

### How the translation was checked

The model is a translation by hand; no theorem relates it to the Go code. Three things test it.

* `Verif/Tests` repeats the unit tests of `/repo/testing` (about 800, test by test) as evaluations of
  the model over the rationals by the kernel. They compare the model with what the authors of the
  library expect and found; all agree. They prove none of the properties. Tests of the text of a
  message are compared by the kind of panic, and constants that need no particular value are small.
* `seeded/LOG.jsonl` lists changes to the model that imitate programming errors, and the theorems
  that fail for each. A fault was added to a copy, the copy rebuilt, the failing theorems replaced by
  `sorry` and the copy rebuilt, up to a limit of rounds; so the list of failing theorems may be
  incomplete, but those listed do fail. An empty list means the fault is not visible in any claim or
  led to a stronger theorem, which is then named.
* Every definition of the model names the lines it translates.

## 3. Plan per property

* C01-C06 value theorems: by induction over the merge loop of `Simplify`, invariant "the sum of
  the denotations is preserved". Full statements are false (see section 4); `_partial` theorems
  with the rearrangement-free condition plus unconditional corollaries for degree <= 2.
* C07, C08 normal form: invariant of the merge loop.
* C09 `pderiv`; C10 heap model of all kinds with panics that are recovered: exact outcome, exact receiver
  afterwards, frame theorem, programs (`HeapAll.lean`), negative witnesses; C11 entrywise.
* C12-C14 `bind₁`; permutations of the iteration order for C14.
* C15-C17 `coeff`; C18 `totalDegree`; C19, C20 list lemmas.
* C21 state machine over histories; C22, C44 interleaving semantics; C23 negative witness.
* C24-C32, C45, C46 vector and matrix model, entrywise specification.
* C33-C41, C47 satisfaction relation over an ordered field.
* C42 instance of C02/C01 at degree <= 2 through the matrix templates.
* C43 panics as values; scalars in `Reject.lean`, vectors, matrices and comparisons in `RejectArray.lean`: what `Check` accepts is stated without it, and every operation on a value outside that set is shown to panic.
* C48 one equation per accepted argument type; C49 fixed points of simplification, operation by
  operation; C50 induction over an inductive predicate of all obtainable expressions.
* C51 frame theorem for one multiplication over the slice memory, then induction over programs.
* C52 per conversion: same shape, same polynomials, same variables (entry-wise `Forall₂` over grids);
  constructors of constants and queries by direct computation against the specification.
* C53 the text is a list of characters; unique readability by stopping conditions on what follows a
  factor, term, scalar, row; then induction over separated lists.
* C54 partial correctness: nothing is assumed about the kinds, the conclusion is about the value returned.
  One proof over an abstract meaning of scalars (`AddSem`, `MulSem` in `Lemmas/Sound.lean`), used twice:
  well-formedness for every number type, values for rearrangement-free terms.
* C55 partial correctness from C54 for each of the four differences; success from the kinds, decided by the number of terms an entry denotes; failure for all shapes.
* C56 `Power` of an accepted vector with one entry equals `Power` of the entry, by unfolding both loops; the other cases are decided by the guards; values follow from C04.
* C57 The loops are followed modulo a ring homomorphism which does not distinguish rearranged terms (`Lemmas/Modulo.lean`); evaluation at an assignment with one nonzero value is one. The converse is by `x_i^2*x_j + x_j^2*x_i`.
* C58 `Model/Binary64.lean` models `float64`. The run on floats and the run on rationals are followed together (`Go.Rel`, `Lemmas/FloatSim.lean`): coefficients stay multiples of `2^-u` and the sum of their absolute values stays below `2^53` units, so no operation rounds.
* C59 The same for vectors, matrices and constraints (`Lemmas/FloatSimArr.lean`, `FloatSimArr2.lean`, `FloatSimCon.lean`): every entry stays on the grid; `N` products in an entry of a matrix product need `N` times the room. Division is followed when the quotient is on the grid, which is so for powers of two.
* C60 the documented contract of `FindInSlice`, stated by indexing; C61 `CheckSubstitutionMap` accepts exactly the documented maps, and substitution in anything but a constant panics on the others.
* C62 a data type of programs; induction over the derivation of `Prog.Fits`, one rule per call. The invariant adds to the denotation that every term is written once (`Lemmas/Neat.lean`), which `Constant`, `LinearCoeff` and `DerivativeWrt` need of their operand.
* C63 an inductive relation `Computes U D M e` between the matrix of polynomials a program means and the expression its calls return, one rule per call; induction with the array lemmas of C39-C47. The matrix is over Mathlib's `MvPolynomial`, products and transposes are Mathlib's.
* C64 `Model/HeapArith` repeats the scalar operations of
  `Model/Scalar` on a memory of exponent slices: what is new, what is shared, what is written.  `Lemmas/HeapRef`
  has the relation "outcome of the function on values, memory only extended, addresses of the result from `lo`
  on", closed under sequencing and loops; every operation is shown to satisfy it.  Programs follow by induction;
  `lo = 0` gives any sharing, `lo` the current size of the memory gives results that share nothing.
* C65 The same for vectors and matrices (`Model/HeapArray`), with `PolynomialVector`s as addresses of backing
  arrays between calls. For programs that differentiate, an invariant over the two sizes of the memory at the
  start: objects obtained since lie wholly above them, and calls on such objects write only there.
* C66 `DerivativeWrt` in scalar programs on the memory of C64. The invariant: no expression uses a slice twice, and
  monomials with the same slice have the same factors. A small logic (`Keeps`, `Lemmas/HeapOwn`) carries it through
  every heap function; the step that matters is `Simplify`, which merges terms that share a slice because such terms
  match. From the invariant, `DerivativeWrt` refines the function on values by the simulation used for C10.
- **C67 Error texts.** `Model/Errors.lean` models the error types of `smErrors` as values (`SmError`) with `text` for the method `Error`, an operand as its `%T` name, `Dims` and `Len`, and the checks as functions that return the error. `Props/Errors.lean` states the texts as format strings, proves them and their injectivity, and proves that each check reports exactly the incompatible cases with the true dimensions; the operation theorems link the checks to the panics of `Plus`, `Minus`, `Multiply`, `Comparison`, `HStack`, `VStack`, `At`, `Check`. Not modelled: `CanNotGetLinearCoeffOfConstantError` (prints a whole expression) and the texts of panics of Go and gonum.
- **C68 Goroutines on shared expressions.** `Model/HeapSteps.lean` repeats the scalar operations of `Model/HeapArith` as programs `SM` (a free monad) whose steps are one read, one allocation or one write of an `Exponents` slice; `Lemmas/HeapStepsRun.lean` proves that run without interruption they are the operations of `Model/HeapArith`, so C64 speaks about the same code. A `Sys` is a memory and any number of goroutines; `Sys.Step` lets any one of them take one step. A read may be torn: each number is one that stood there at some moment since the goroutine's previous access. The invariant (`SysInv`) gives each goroutine a view of the slices it knows and a set of slices it owns; nobody else knows these, and only these are written. Not modelled: reordering of a goroutine's own writes as other goroutines see them beyond what torn reads allow, and the fresh-variable counter. `VariableFactors` are values. `threads_derivative_false` is the execution in which `DerivativeWrt` in one goroutine spoils the sum of another.
- **C69 Rounding errors.** `Lemmas/Round.lean` states what floating point guarantees (`RoundModel`: a sum or product is exact up to a relative error `u` unless it overflows or underflows, a sum with zero and a product with minus one are exact) and follows the loops of `Simplify`, `Plus` and `Multiply` term by term: every term is annotated with the exact number it stands for, a bound and the number of roundings so far (`Ann`, `Near`). `Lemmas/RoundF64.lean` proves the guarantees for `Model/Binary64` with `u = 2^-53` from the definition of rounding (results have at most 53 bits; the relative error of rounding; sums of floats are multiples of `2^-1074`, so sums never underflow). The statement in `Props/Round.lean` compares polynomials over the rationals: the exact value of what the library returned with the exact result.
- **C70 Rounding errors of arrays.** The array code is followed once in `Lemmas/Sound.lean` for an abstract meaning of scalars (`AddSem`, `MulSem`). `Lemmas/RoundArr.lean` gives the meaning: exact polynomial, bound, number of roundings, number of like terms, number of terms; such meanings can be added and multiplied, but not associatively, so `MulSem` asks only for commutative operations. Differences use the same meanings with the exact product by minus one. `Props/RoundArr.lean` states the bounds for matrices of polynomials over the rationals. `Props/RoundGrid.lean` replaces the condition on underflow in C69 by a condition on the given coefficients (multiples of `2^-p`): rounding keeps the multiples of `2^-p`, so the same proofs run with the rounding model restricted to them.
- **C71 Lists of tracked variables.** `Model/EnvMem.lean` puts the list of an environment into memory as a slice (array, offset, length, capacity, as in `Model/Slice.lean`); the spare capacity of a new array is a parameter of every append. A program is any sequence of calls and of what the caller does with the slices it holds. The specification in `Props/EnvMem.lean` (`VState`) treats every list as a value. The proof is a simulation: arrays of different environments differ, a returned slice ends before the end of the environment's slice if they share an array, and the caller's copies share no array with either. The full claim is kept as `ListIsCopy` and refuted with the capacities of Go's doubling.
- **C72 Rounding of linear representations.** `Props/RoundLin.lean` reads coefficients through the exact counterpart of an expression (relation of C59, no law of floats is used), takes the bound of left minus right from C69 and rounds the difference of the constants once. `rowOf_margin` turns the bounds on coefficients into a statement on points.
- **C73 Rounding of derivatives.** `Props/RoundDeriv.lean`: a product of a float by an integer is a multiple of `2^-1074`, so rounding it is a relative error even in the subnormal range. The loop over the terms of a polynomial keeps an annotated list of terms (`Ann`), from which `appr_of_ann` gives the bound.
- **C74 Terms as written.** `Lemmas/Forms.lean` reads an expression as a finitely supported function on (set of variables, list of exponents), proves every loop of `Simplify`, `Plus`, `Minus` additive for that reading, and more generally for any map of terms that respects it (`SemW`). `Lemmas/FormsMul.lean` computes the written form of a product and proves `Multiply` exact for consistent sets; `Props/Forms.lean` states the results and the converse.
- **C75 Checked programs.** `Lemmas/FormsProg.lean` computes with `Shape`s: lists of ways of writing terms and whether a result may be a Monomial or Polynomial (which decides the order of factors), for every operation, and proves that they bound the results (from C74). `Props/Checked.lean` runs this over programs; `Props/CheckedFits.lean` shows that programs of C62 are accepted.
- **C76 Checked array programs.** `Lemmas/Entries.lean` bounds the terms of one entry (`Entry`: the ways its terms can be written, and whether no two were confused) and shows that sums and products of entries obey the bounds, as an instance of the interface through which all array operations were verified (`AddSem`, `MulSem`). `Props/ArrayChecked.lean` has the programs (`AProg`, indexed by the size of the result), the check and its soundness.
- **C77 Checked constraints.** `Props/CheckedCon.lean` restates C34, C35 and C39 for terms that are written consistently, at any degree (`simplify_con_written`, `scaleBy_written`, `isNonneg_written`), and has sequences of calls that build a constraint (`ConProg`), the check, the solutions asked for (`ConProg.Holds`) and the proof by induction over the calls.
- **C78 Checked vector and matrix constraints.** `Props/ArrayCheckedCon.lean` has the calls (`AConProg`), the check of an entry (`AConProg.okAt`), what is asked for at an entry (`AConProg.HoldsAt`) and the proof by induction over the calls: what is known of the entries of both sides (C76) is kept by each call, and the comparison of what they stand for is kept or moved to the other assignment.
- **C79 Readings of checked programs.** `Props/CheckedLinear.lean` computes `sharp` from the calls, proves by induction over the calls (with the lemmas of `Lemmas/Neat.lean`) that terms below that degree are written once, and combines this with C75, C77 and the theorems on `Constant`, `LinearCoeff` and the linear representations.
- **C80 The problem handed to a solver.** `Props/CheckedProblem.lean` combines C78 with C40 (compiling) and C47 (linear representations): rows that hold somewhere and fail somewhere are not constant, and a constraint that was just simplified writes no low term twice.
- **C81 Machine integers.** `Model/Machine.lean` repeats the scalar model with a function applied after every addition to an exponent or degree; `Lemmas/Machine.lean` shows call by call that it makes no difference while it keeps all numbers up to the formal degree; `Props/Machine.lean` composes this over programs.
- **C82 Concurrent derivatives.** `Model/DerivRace.lean` runs `Monomial.DerivativeWrt` step by step, one access to an exponent at a time; `Props/DerivRace.lean` proves the sufficient condition with an invariant over all schedules and its necessity with the serial schedule.
- **C83 Rounding of whole programs.** `Lemmas/RoundSubst.lean` carries an invariant (`Kept`: well formed, terms in a family, coefficients on a binary grid, error bound, number of exponent vectors) through every call, including the folds of `Substitute` and `SubstituteAccordingTo`; `Props/RoundProgram.lean` counts roundings, terms, places and sizes by recursion on the program and composes.
- **C84 Printed float64 values.** `Model/Format.lean` specifies `%v` of a `float64` as the shortest decimal that reads back. `Props/Format.lean` reads texts as numbers (`decimalValue`), shows that rounding is monotone, that 1383 digits are enough for every `float64`, and that the loop finds the shortest and nearest decimal. `Props/FormatExpr.lean` shows that `String` of a `float64` expression is `String` of the expression with the same exact coefficients under a format that meets the assumptions of C53, so C53 carries over.
- **C85 Signs of zeros.** `Model/SignedZero.lean` adds the two zeros of IEEE 754 to `F64`. `Lemmas/Hom*.lean` show that every function of the model commutes with a map of numbers and variables that respects the arithmetic and the comparisons (`NumHom`); forgetting the sign of zeros is such a map (`F64Z.unsigned`) but for division by zero. `Props/SignedZero.lean` states the consequences; by `zeros_erase` all results about `F64` hold for numbers with both zeros.
- **C86 Other variables.** The maps of `Lemmas/Hom*.lean` may change variables as well as numbers (`Recode`). `Props/Renaming.lean` leaves the numbers alone and replaces the variables; `relabel_renames` and `renaming_exists` say which replacements are covered.
- **C87 Rounding of vector representations.** `Lemmas/Sharp.lean` proves the best relative error of rounding to nearest, `1/(2^53+1)`, and gives a second rounding model with it. `Props/RoundVecLin.lean` runs the first subtraction with that model, so that its first-degree coefficients must be those of the right side, and the second one with the usual model.
- **C88 Coefficients of sums.** `Lemmas/CoefSum.lean` follows one coefficient through `Plus`, the multiplication by -1 and `Simplify`, over any number type with a few laws (zero is neutral, addition commutes; no associativity). `Props/Coefs.lean` proves the laws for binary64 and reads off sums, differences and the linear representations number for number. Exponent vectors written twice are excluded: their sum depends on the order of the terms.
- **C89 Coefficients of products and derivatives.** `Lemmas/CoefMul.lean` follows one coefficient through every case of `Multiply`, over any number type in which one is neutral and multiplication commutes. `Props/CoefsMul.lean` instantiates it for binary64 and does the same for `DerivativeWrt`, where no condition on the family is needed because nothing is merged.
- **C90 Matrix times variables.** `Props/CoefsMat.lean` follows one coefficient through the loop of `KMatrix.Multiply` with the tools of C88/C89, then through the comparison and the representation of C88.
- **C91 Linear and quadratic forms.** `Props/CoefsQuad.lean` follows one coefficient through the loops for one row of any kind times a vector of variables, and combines this with the product of the row of variables and `Q`.
- **C92 Coefficients of programs.** `Props/CoefsProg.lean` defines the programs, the value of one coefficient by recursion on the program (`LProg.coefAt`, float64 operations only), and proves by induction that the calls compute it; the representations follow with C88.
- **C93 Coefficients of vector programs.** `Props/CoefsVec.lean` defines the programs, the constant and the coefficient of a variable in a row by recursion on the program (`VLProg.const`, `VLProg.coef`, float64 operations only), and proves by induction that the calls compute them; the representations follow with C88.
- **C94 Evaluation.** `Props/Evaluate.lean` defines the evaluation from left to right with the operations of the arithmetic only (`Scalar.naive`) and the exact value of a term over the rationals (`Mono.exactAt`). The calls are unfolded without any law; the bounds follow from `Near` (`Lemmas/Round.lean`) and the rounding of `float64` (`F64.rounding`), where `1*x` and `0+x` are exact.
- **C95 Coefficients of matrix products.** `Props/CoefsMatMul.lean` states the coefficients of an entry with `accSum` (a float64 sum from zero) and `Scalar.timesAt` (C89), and follows the loop of the product template with the coefficient function of the partial sum as invariant (`Mat.mul_mat_ok`).
- **C96 Coefficients of powers.** `Props/CoefsPow.lean`: for one term by induction on the exponent with the exact result of `Mono.mulMono` on equal lists of variables; for expressions by iterating `mul_coeffs` (C89); for squares the sum over the terms is reduced to the one or two terms that contribute (`fold_one`, `fold_two`).
- **C97 Errors of LinearCoeff.** `Model/LinError.lean` has the two errors as values with the expression they carry; `Props/LinError.lean` compares their text with `constantMessage`, splits the text at its last opening bracket (type names have none) and then uses that `String` determines the value (C53).
- **C98 Coefficients of array sums.** `Props/CoefsArr.lean`: the entrywise lemmas of `Lemmas/ArrOps.lean` and `Lemmas/ArrMul.lean` with the coefficient invariant `CRes` of C88 for each entry.
- **C99 Coefficients of matrix-vector products.** `Props/CoefsMatVec.lean`: the loops of `Lemmas/ArrMul.lean` with the invariant that the partial sum has the coefficients `accSum`; exchanged factors give the same coefficients because one factor has one term (`mul_comm_term`).
- **C100 Coefficients of array derivatives.** `Props/CoefsDeriv.lean`: the loops of `Props/ArrayDeriv.lean` with the scalar theorem of C89 in every entry; monomial vectors are described as they are, with the exponent lowered twice.
- **C101 Order of two derivatives.** `Props/MixedPartials.lean`: the scalar theorem of C89 twice; products with 1, 2 and 4 are exact or overflow in both orders (`Lemmas/Doubling.lean`), equal factors may be exchanged, and `0.1*x^3*y^5` shows that others may not.
- **C102 The factor two.** `Props/Twice.lean`: C88 and C89 give the operations; `F64.ofRat_double` (`Lemmas/Doubling.lean`) says that doubling may be done before or after rounding, since sums of floats are multiples of the smallest float.
- **C103 Doubled constraints.** `Props/TwiceCon.lean`: the doubled sides meet the hypotheses of C88, and differences of doubled coefficients are doubled differences (`F64.two_distrib`).

## 4. Status and findings

The status of each property is in `MANIFEST.json`; `AXIOMS.md` lists the axioms of each theorem named
there (`tools/axioms.sh` regenerates it). Each finding below is a theorem with a concrete witness
(`tools/findings.py` regenerates the list).

<!-- findings -->

* `minus_int_false` (`Args.lean`): `x.Plus(1)` works, `x.Minus(1)` with the `int` 1 panics, `x.Minus(K(1))` works.
* `kmat_comparison_f64_false` (`Args.lean`): A vector of variables compared with the number 1: rejected; so is the `K`. A constant matrix compared with a `float64` is rejected, with the `K` it is not.
* `vmat_comparison_densePtr_false` (`Args.lean`): A matrix of variables compared with a `mat.Dense` works, with the pointer to it it does not.
* `kmat_mul_vec_false` (`Args.lean`): A constant matrix times a gonum vector: the pointer works, the value does not, nor does the `KVector`.
* `plus_false` (`ArithNeg.lean`): The full statement of C01 is false: `x^2*y + y^2*x` is computed as `2*x^2*y`.
* `mul_false` (`ArithNeg.lean`): The full statement of C02 is false: `(x+y)*(x*y)` is computed as `2*x^2*y`.
* `minus_false` (`ArithNeg.lean`): The full statement of C03 is false: `x^2*y - y^2*x` is computed as `0`.
* `power_false` (`ArithNeg.lean`): The full statement of C04 is false: `(x+y)^3` is computed as `x^3 + 2*x^2*y + 4*x*y^2 + y^3`.
* `asSimplified_false` (`ArithNeg.lean`): The full statement of C06 is false: simplifying `x^2*y + y^2*x` gives `2*x^2*y`.
* `plus_comm_false` (`ArithNeg.lean`): The full statement of C05 is false: `Plus` is not even commutative up to meaning (`x^2*y + y^2*x` versus `y^2*x + x^2*y`).
* `derivative_polyMat_panics` (`ArrayDeriv.lean`): C11: `PolynomialMatrix.DerivativeWrt` panics as soon as the derivative of an entry is constant zero.
* `derivative_polyVec_panics` (`ArrayDeriv.lean`): C11 is false: a polynomial vector with an entry that does not contain `v` makes `DerivativeWrt` panic.
* `derivative_monoVec_false` (`ArrayDeriv.lean`): C11 is false for vectors of monomials: `d/dx (x^2) = 2x` is computed as 1.
* `arrayProgram_false` (`ArrayProgram.lean`): C63 as stated, without the condition on the terms, is false already for one call: the sum of the columns `(x^2*y, 1)` and `(y^2*x, 1)` is returned as `(2*x^2*y, 2)`.
* `substMap_array_order_false` (`ArraySubst.lean`): `(x, y)` with the map `{x: y, y: x}`: the swap gives `(y, x)`, the two orders give `(x, x)` and `(y, y)`.
* `substMap_array_false` (`ArraySubst.lean`): C14 is false in general: neither simultaneous nor independent of the order.
* `substMap_array_evaluates_false` (`ArraySubst.lean`): Evaluating the vector `(x^2*y*z + y^2*x*w)` at `x = 2`, `y = z = w = 1` gives 8 or 6, depending on the order in which the map is visited; 6 is right. With `w` visited after `z` the two terms become rearrangements of each other and are merged.
* `checked_fits_false` (`CheckedFits.lean`): The converse is false: `x^2 y` passes the check, but fits no set of C62.
* `program_constant_false` (`CheckedLinear.lean`): C79: after three derivatives in a row `Constant` can be wrong although the program passes the check: it returns 2 for `2 + 2`.
* `conProgram_inequality_false` (`CheckedLinear.lean`): C79: so can the linear inequality representation: `x <= 2 + 2` is returned as `x <= 2`.
* `program_linearCoeff_false` (`CheckedLinear.lean`): C79: after two derivatives in a row `LinearCoeff` can be wrong: it returns 2 for the coefficient of `y` in `2y + 2y`.
* `arrayConstraint_inequality_false` (`CheckedProblem.lean`): C80: after three derivatives in a row the representation of a checked vector constraint can be wrong: `(x, y) <= (2 + 2, 2 + 2)` is returned as `(x, y) <= (2, 2)`.
* `concretizeMat_noColumns_false` (`Closed.lean`): C50 is false without the condition that a table has an entry: `ConcretizeMatrixExpression` of a table whose rows are empty returns a variable matrix without columns (`symbolic/matrix_expression.go:304-329`, `isAllVariables` stays true).
* `constant_false` (`Coeffs.lean`): C16 is false for a polynomial that was written with two constant terms: `1 + 2`.
* `linearCoeff_mono_panics` (`Coeffs.lean`): C15: the complete list of panics of `Monomial.LinearCoeff` on well-formed monomials and non-empty lists: constant monomials, and first-degree monomials in a variable that is not listed. In both cases the right answer is a zero vector.
* `linearCoeff_mono_false` (`Coeffs.lean`): C15 is false for monomials: the coefficient of `y` in `2*x` is not `0` but a panic.
* `linearCoeff_mono_dup_false` (`Coeffs.lean`): C15 is false for lists with a repeated variable: `LinearCoeff` of `2*x` for `[x, x]` is `[0, 2]`.
* `linearCoeff_poly_false` (`Coeffs.lean`): C15 is false for a polynomial that writes a first-degree term twice: `x + 2*x`.
* `affine_reconstruction_false` (`Coeffs.lean`): C17 is false for constant monomials: `LinearCoeff` panics although `IsLinear` is true.
* `mul_comm_float_false` (`CoefsMul.lean`): C89: with more terms in both factors the order of the factors does matter, in the last bit: `(1 + 2^-53) + 2^-53` is 1 and `(2^-53 + 2^-53) + 1` is not.
* `power_power_float_false` (`CoefsPow.lean`): C96: `Power(2)` twice and `Power(4)` of the integer `208065` differ in the last bit.
* `compile_broadcast_false` (`Compile.lean`): C40 is false for constraints of different lengths: `Check` accepts `(x) <= (1, 0)`, and only the constraint `x <= 1` is compiled.
* `compile_broadcast_panics` (`Compile.lean`): C40: the other way round, `(1, 0) <= (x)` passes `Check` and compiling it panics.
* `implies_arrays_false` (`Compile.lean`): C38: vector and matrix constraints never claim to imply a vector or matrix constraint.
* `comparison_false` (`Compile.lean`): C33 is false for the other pairs of kinds: they are rejected, in one direction only.
* `simplify_con_constant_false` (`ConstrNeg.lean`): The second half of C34 is false: `x + 1 <= 3` is returned unchanged, and `Simplify` never removes a constant of the left side.
* `simplify_con_false` (`ConstrNeg.lean`): C34 is false for terms that are rearrangements of each other: `x^2*y = y^2*x` becomes `0 = 0`.
* `scaleBy_false` (`ConstrNeg.lean`): C35 is false for terms that are rearrangements of each other: `x^2*y + y^2*x <= 5` scaled by 1 becomes `2*x^2*y <= 5`.
* `scaleBy_zero_false` (`ConstrNeg.lean`): C35 needs a non-zero factor: scaled by zero every constraint becomes `0 >= 0`.
* `linearIneq_false` (`ConstrNeg.lean`): C36 is false when a constant is written twice: `1 + 2 + x <= 0` gives `x <= -1`.
* `linearEq_false` (`ConstrNeg.lean`): C37 is false when a constant is written twice: `1 + 2 + x = 0` gives `x = -1`.
* `substitute_con_false` (`ConstrNeg.lean`): C41 is false for terms that are rearrangements of each other: `x^3 <= 27` with `x := x + y`.
* `kvToPolyVec_panics` (`Convert.lean`): C52 is false for the empty vector of constants: `ToMonomialVector` returns an empty vector, `ToPolynomialVector` panics on it.
* `toPolynomialLike_false` (`Convert.lean`): The converse is false for pointers to gonum values.
* `mvIsConstant_false` (`Convert.lean`): The converse of `mvIsConstant_sound` is false: `0 * x` is a constant, but not for `IsConstant`.
* `kmConvert_false` (`Convert.lean`): C52 is false for constant matrices that are not rectangular: a longer row loses its last entries, a shorter one panics.
* `monomialIndex_false` (`Convert.lean`): C52 is false for terms that are not flat: `y^2*x` is found at the position of `x^2*y`, and `x^2*y` written with the factors in the other order is not found.
* `deriv_race_false` (`DerivRace.lean`): C82: not so in general: two calls take turns on `x^2 y`, both multiply by two, then both count down, and both return `2 x^0 y` instead of `2 x y`.
* `deriv_race_serial_false` (`DerivRace.lean`): C82: not so in general: two calls on `x^3 y` one after the other: the second takes the derivative of what the first left.
* `newVar_fresh_false` (`Env.lean`): C21 is false: after tracking a variable with ID `1` in an empty environment, a new variable has the ID of the tracked one.
* `created_distinct_false` (`Env.lean`): C21 is false: two created variables can have the same ID.
* `concurrent_false` (`Env.lean`): C22 is false: two goroutines in an empty environment.
* `listIsCopy_append_false` (`EnvMem.lean`): The full claim is false: after an `append` to a returned list the environment tracks another variable than the one it created.
* `envMem_nodup_write_false` (`EnvMem.lean`): A write to a returned list: two tracked variables have the same ID.
* `dupEnvironment_false` (`EnvMem.lean`): Nor may the struct of an environment be copied: the two environments then replace each other's variables.
* `substMap_vec_rounding_order_false` (`Evaluate.lean`): For vectors the order matters, already with linear entries: `(x + y + z, x + y + z)` at `x = 2^53`, `y = 1`, `z = -2^53` is `(0, 0)` or `(1, 1)`, depending on the iteration order of the map. The exact value is 1; the scalar `x + y + z` gives 0 in every order.
* `plus_float64_false` (`Float.lean`): One unit more than C58 allows and it is false: `2^53 x + x` is `2^53 x` on `float64`, so the value of the sum is wrong at every assignment with `x ≠ 0`.
* `implies_float64_false` (`FloatArr.lean`): Without powers of two C59 is false and so is C38 on `float64`: `49 x <= 49` is said to imply `x <= 1 - 2^-53`, although `x = 1` satisfies the first only.
* `float_text_exact_false` (`Format.lean`): C84 is about `float64` values and not about the number that was meant: the sum of 0.1 and 0.2 is not printed as 0.3, and the number printed is not the value of the variable but a decimal that reads as it.
* `float_string_names_false` (`FormatExpr.lean`): C84 is false for names chosen by the client.
* `from_empty_false` (`From.lean`): C45 is false for empty slices: they panic.
* `heap_gradient_false` (`Heap.lean`): C10 is false: calling `DerivativeWrt` on a valid expression changes it, and a later call on the same expression returns a wrong derivative.
* `heap_polyCopy_false` (`Heap.lean`): `Polynomial.Copy` does not protect the original: differentiating the copy of `x^2 + y` turns the original into `x + y`.
* `heapAll_panic_polyVec_false` (`HeapAll.lean`): A recovered panic leaves a `PolynomialVector` half differentiated: `[x^2 + x, y]` becomes `[2*x + 1, y]`.
* `heapAll_panic_polyMat_false` (`HeapAll.lean`): A recovered panic leaves a `PolynomialMatrix` changed: `[[x^2 + x, y]]` becomes `[[x + x, y]]`.
* `heapAll_monoMat_false` (`HeapAll.lean`): Differentiating the `MonomialMatrix` `[[x^2, y]]` by `x` twice: the receiver becomes `[[x, y]]`, and the second call returns `[[1, 0]]` instead of `[[2*x, 0]]`.
* `heapArith_sum_derivative_false` (`HeapArith.lean`): `s := 2y + x²; s.DerivativeWrt(x)` turns the operand `x²` into `x`.
* `heapArray_sum_derivative_false` (`HeapArray.lean`): So a program is not the program on values: the derivative of the sum should be `(3x², 3x²)`.
* `heapArray_sum_matrix_derivative_false` (`HeapArray.lean`): Likewise for matrices.
* `heapDeriv_twice_false` (`HeapDeriv.lean`): A `Polynomial` literal that has the same `Monomial` twice, `x³ + x³`: its derivative is not `6x²`.
* `threads_derivative_false` (`HeapSteps.lean`): If the first goroutine writes between the check and the copy of the second, the second returns `x + 2y`.
* `implies_constant_false` (`Implies.lean`): C38 is false with a constant on the left: `x - 5 <= 0` is said to imply `x <= 1`.
* `implies_nonlinear_false` (`Implies.lean`): C38 is false for terms of higher degree: `x - x^2 <= 0` is said to imply `x <= 0`.
* `isNonneg_false` (`Implies.lean`): C39 is false with a constant on the left: `x - 5 >= 0` is called a non-negativity constraint.
* `linearCoeff_text_false` (`LinError.lean`): C97: `x.LinearCoeff([]Variable{})` fails with a text that says that `x` represents a constant.
* `machine_negative_false` (`Machine.lean`): One more: the exponent is negative, and `Check` does not object.
* `machine_square_false` (`Machine.lean`): C81 fails without the bound: after 64 squarings the library holds `x ^ 0`, that is `1`, for `x ^ (2 ^ 64)`.
* `machine_square32_false` (`Machine.lean`): On a 32-bit machine 32 squarings do.
* `machine_degree_false` (`Machine.lean`): C81 fails without the bound for the readings: the degree of that product is reported as 0, and it counts as linear.
* `machine_plus_false` (`Machine.lean`): Adding 1 to it loses it altogether: `Plus` returns the constant 1.
* `mat_simplify_panics` (`MatCon.lean`): C34 fails for matrices: with a matrix of variables on a side the type assertion in `Plus` panics, a matrix of monomials is unsupported, and so is a matrix of polynomials with one variable per entry.
* `mat_simplify_column_panics` (`MatCon.lean`): One column: the difference is no longer a matrix.
* `kmat_mul_kvec_false` (`Matrices.lean`): C26 is false for a constant matrix and a constant vector: `KMatrix.Multiply` does not accept `KVector`.
* `monomat_mul_varvec_panics` (`Matrices.lean`): C26 is false for a matrix of monomials with several rows whose product with a vector of variables collapses to a single monomial: the rows `(x, x)` and `(y, x)` times `(x, x)` panic in a type assertion.
* `kmat_row_mul_short_vec_false` (`Matrices.lean`): C26: a constant matrix with one row and three columns times a vector of length one is accepted and drops the second and third column.
* `varmat_mul_one_panics` (`Matrices.lean`): C25 is false for a matrix of variables and the constants 0 and 1: the products are not monomials and the type assertion panics.
* `kmat_mul_var_false` (`Matrices.lean`): C25 is false for a constant matrix and a variable or a monomial, and for a constant on the left of a matrix of variables.
* `quadratic_form_one_false` (`Matrices.lean`): C42 is false for a single variable: the product of the 1 by 1 matrices is a scalar, which does not accept a vector.
* `mat_plus_kinds_false` (`MatrixSum.lean`): C27 is false for the remaining pairs of kinds: the sum of two matrices of variables, of two matrices of monomials, of monomials and constants, of variables and monomials and of polynomials and monomials is not supported.
* `varmat_plus_zero_panics` (`MatrixSum.lean`): C05 is false for matrices: `KMatrix + VariableMatrix` is defined, `VariableMatrix + KMatrix` with a zero entry panics, although both sums are the same matrix.
* `varmat_one_plus_kmat_false` (`MatrixSum.lean`): C27: a 1 by 1 matrix of variables plus a larger constant matrix is accepted and loses every entry but the first.
* `var_plus_mat_false` (`MatrixSum.lean`): C27 is false for a variable or a monomial on the left and for a matrix of polynomials plus a variable.
* `kmat_minus_polycol_false` (`MatrixSum.lean`): C03 is false for matrices: with a single column the negated `PolynomialMatrix` is turned into a vector, which `KMatrix.Plus` does not accept.
* `polymat_minus_polymat_false` (`MatrixSum.lean`): C03 is false for two matrices of polynomials: when every entry on the right has a single term, the negated matrix is turned into a `MonomialMatrix`, which `PolynomialMatrix.Plus` does not accept.
* `mixed_partials_false` (`MixedPartials.lean`): C101: degree eight is too much: `0.1·x³y⁵`: by `x` first, `(0.1 * 3) * 5`; by `y` first, `(0.1 * 5) * 3`.
* `simplify_distinct_false` (`NormalForm.lean`): C07 is false without the condition: `x^2*y + x^2*y`, with the factors of the second term listed as `y, x`, is not merged.
* `smallestKind_false` (`NormalForm.lean`): C08 is false without the condition: `x^2*y - x^2*y`, with the factors of the second term listed as `y, x`, stays a `Polynomial` although it denotes the constant `0`.
* `degree_false` (`NormalForm.lean`): C18 is false for non-flat terms: `x^2*y - x^2*y`, with the factors of the second term listed as `y, x`, is its own simplification, has `Degree() = 3` and denotes `0`.
* `program_false` (`Program.lean`): C62 without a condition on the terms is false: the program `x^2*y + x*y^2` returns `2*x^2*y`.
* `program_same_false` (`Program.lean`): C62 without the condition that variables with one ID are one variable is false: the variable of another environment is not replaced.
* `plus_rejects_false` (`Reject.lean`): C43 is false for `Variable.Plus`: an invalid variable is accepted as argument.
* `array_rejects_false` (`RejectArray.lean`): C43 fails for arrays: an empty vector of polynomials is differentiated, and a vector with a malformed variable is simplified, queried for its degree and its constant, and read.
* `renaming_merge_false` (`Renaming.lean`): With the same ID for both variables, `x + y` becomes one monomial, as `x + x` is: the replacement of the sum would have two.
* `renaming_keys_false` (`Renaming.lean`): The name is part of the key of a substitution map: with the names forgotten, but IDs and environments kept, a map with a key of another name has a value for `x`.
* `renaming_variables_false` (`Renaming.lean`): `Variables` of a constraint lists a variable twice if it occurs with two names, and once if the names are forgotten.
* `renaming_implies_false` (`Renaming.lean`): `ImpliesThisIsAlsoSatisfied` counts the variables of the constraints: `x · x⁰ ≤ -1` is taken to have two variables if its factors have two names.
* `relative_error_false` (`Round.lean`): No bound relative to the exact result: `2^53 x + x - 2^53 x - x` simplifies to `-x`, while the exact result is zero.
* `underflow_false` (`Round.lean`): Underflow: half of the least positive float is zero, an error of the size of the result.
* `overflow_false` (`Round.lean`): Overflow: `2^1023 x + 2^1023 x` has no finite coefficient.
* `derivative_float_false` (`RoundDeriv.lean`): C09 without rounding errors is false on floats: the derivative of `0.1 x^3` is not three times the float `0.1`.
* `linearIneq_float_false` (`RoundLin.lean`): The half-space of C36 is not exact on floats: `2^53 x ≤ -x + 2^53` is returned as `2^53 x ≤ 2^53`, which holds at `1` although the constraint does not.
* `program_nan_bound_false` (`RoundProgram.lean`): C83 fails for variables with a NaN bound: a Go map never finds such a key, and `x` with `5` for `x` stays `x`.
* `program_overflow_false` (`RoundProgram.lean`): C83 fails without the bound on the sizes: `2^600 x` squared has the coefficient `+Inf`.
* `mat_power_one_by_one_panics` (`Shapes.lean`): C46 fails for 1 by 1 matrices: the product of two of them is a scalar, which the code asserts to be a matrix.
* `shared_multiply_false` (`Share.lean`): C44 is false: goroutine `0` appends `x_3`, goroutine `1` overwrites it with `x_4`, and goroutine `0` then does not find `x_3` among the variables and panics with the index `-1`.
* `zeros_text_false` (`SignedZero.lean`): The text: `K(0).Multiply(-1)` prints `-0`, `K(0)` prints `0`; the two differ in the sign of a zero only.
* `zeros_implies_false` (`SignedZero.lean`): `ImpliesThisIsAlsoSatisfied`: it divides by the coefficient without looking at it. `0 x <= -1`, where `0 x` is `x.Multiply(3.0).Multiply(0.0)`, is said to imply `x <= 5`; `-0 x <= -1`, where `-0 x` is `x.Multiply(-3.0).Multiply(0.0)`, is not.
* `mono_mul_simplified_false` (`Simplified.lean`): `3x` times 0 is returned as the monomial `0x`, which simplifies to 0.
* `mono_mul_var_simplified_false` (`Simplified.lean`): `2x` times 0.5 is returned as the monomial `1x`, which simplifies to the variable `x`.
* `mmat_plus_simplified_false` (`Simplified.lean`): A `MonomialMatrix` plus `3x` returns `3x + 3x` as two terms; `Simplify` turns them into `6x`.
* `mmat_mul_simplified_false` (`Simplified.lean`): A `MonomialMatrix` times 0 is returned as a matrix of monomials with coefficient 0.
* `k_minus_vmat_simplified_false` (`Simplified.lean`): 0 minus a matrix of variables keeps the term 0 in every entry.
* `multiply_caller_false` (`Slice.lean`): C51 is false: with `vars` an array of four variables, `Monomial{1, {1}, vars[:1]}` times `x_4` overwrites `vars[1]`.
* `multiply_value_false` (`Slice.lean`): C51 is false: `Monomial{1, {1}, vars[:1]}` times `Monomial{1, {1, 1}, vars[2:4]}` is computed as `x_0 * x_2^0 * x_3^2`, and the argument is `x_3 * x_3` afterwards.
* `substitute_false` (`Subst.lean`): C12 is false in general: `x^3` with `x := x + y` is collected wrongly.
* `substitute_env_false` (`Subst.lean`): C12 with variables of two environments: `Substitute` compares environments, arithmetic does not. Here `x` of another environment denotes the same indeterminate but is not replaced.
* `substMap_false` (`Subst.lean`): C13 is false in general, for the same reason as C12.
* `string_names_false` (`Text.lean`): C53 is false for names chosen by the client, even when they are all different: with variables named `a`, `b` and `ab`, the product of the first two and the third have the same text.
* `string_kmatrix_brackets_false` (`Text.lean`): C53 is false for matrices of constants: the text of a 2 by 2 matrix opens four brackets and closes three.
* `string_mmatrix_commas_false` (`Text.lean`): Between the rows of a matrix of monomials there are two commas.
* `concurrent_tracked_false` (`Tight.lean`): C22 is false: a variable returned to a goroutine need not be tracked. Goroutine `1` reads the slice before goroutine `0` creates two variables; when it writes, the second one is gone.
* `twice_sum_overflow_false` (`Twice.lean`): C102: the doubled operands must be finite: `2^1023` and `-2^1023`.
* `thrice_sum_false` (`Twice.lean`): C102: the factor three does not distribute: `3 * (0.1 + 0.4)` and `3 * 0.1 + 3 * 0.4`.
* `linearIneq_thrice_false` (`TwiceCon.lean`): C103: the factor three changes the row by more than the factor: `0.1 x ≤ -0.4 x` has the row `0.5`; with both sides times three it is not `1.5`.
* `findInSlice_false` (`Util.lean`): C60, not the general claim: a `uint64` searched in a slice of `int`s panics instead of returning an error; a variable is found at an index that holds another variable.
* `substEMap_false` (`Util.lean`): C61, not the general claim: the number `3` accepts a map with a vector as value.
* `vec_linearIneq_one_panics` (`VecLinear.lean`): C47, C34 are false for one row: the difference of two vectors of length one is a scalar, and the type assertion panics.
* `vec_linearIneq_constant_panics` (`VecLinear.lean`): C47 is false for a row without variables: `(2x, y) <= (1, y)` panics although it is linear, well formed and covered by the list.
* `vec_linearIneq_false` (`VecLinear.lean`): C36, C47 are false for vector constraints in general.
* `vec_power_false` (`VecPower.lean`): The full statement of C56 is false, because the power of the entry can be wrong.
* `mono_plus_vec_false` (`Vectors.lean`): The full statement of C24 is false for a monomial on the left: `Monomial.Plus` does not accept vectors.
* `vec_plus_length_one_false` (`Vectors.lean`): C24 fails for vectors of different lengths when one of them has length one: `(x) + (y, z)` is computed as the scalar `x + y`, no error is reported and `z` is lost.
* `vec_plus_length_one_panics` (`Vectors.lean`): C24: the other way round, `(x, y) + (z)` panics with an index error instead of broadcasting or reporting a dimension error.
* `polyvec_mul_var_false` (`Vectors.lean`): C25 fails for a `PolynomialVector` and a `Variable` or `Monomial`.
* `k_mul_vec_false` (`Vectors.lean`): C25 fails for a constant or a monomial on the left.
* `kvec_one_mul_vec_false` (`Vectors.lean`): A constant vector of length one times a longer vector of variables drops every entry after the first: `(2) * (x, y)` is computed as `2x`.
