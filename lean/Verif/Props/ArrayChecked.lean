import Verif.Props.ArrayProgram
import Verif.Props.Checked
import Verif.Props.ProgramTotal
import Verif.Props.Forms
import Verif.Lemmas.Entries
import Verif.Model.HeapArray

/-!
# C76: a check of programs over vectors and matrices, that guarantees their results at any degree

As `Prog.checked` (C75), for the calls on scalars, vectors and matrices: the check looks at the variables, sizes and
operations, not at the numbers.  If it says yes and every call returns, the result is the matrix that the calls stand
for.
-/

set_option linter.unusedSectionVars false

namespace Verif

open MvPolynomial

variable {R : Type}

/-- A program whose result has `r` rows and `c` columns. -/
inductive AProg (R : Type) : ℕ → ℕ → Type
  /-- A scalar obtained by a program as in C62. -/
  | scalar (p : Prog R) : AProg R 1 1
  /-- A vector of numbers, of variables. -/
  | kvec {r} (f : Fin (r + 1) → R) : AProg R (r + 1) 1
  | vvec {r} (f : Fin (r + 1) → Var R) : AProg R (r + 1) 1
  /-- A matrix of numbers, of variables. -/
  | kmat {r c} (f : Fin (r + 1) → Fin (c + 1) → R) : AProg R (r + 1) (c + 1)
  | vmat {r c} (f : Fin (r + 1) → Fin (c + 1) → Var R) : AProg R (r + 1) (c + 1)
  /-- `Plus`, `Minus`, `Multiply`. -/
  | plus {r c} (a b : AProg R r c) : AProg R r c
  | minus {r c} (a b : AProg R r c) : AProg R r c
  | mul {r n c} (a : AProg R r n) (b : AProg R n c) : AProg R r c
  /-- The same with a scalar as the second, and as the first operand. -/
  | plusS {r c} (a : AProg R r c) (s : AProg R 1 1) : AProg R r c
  | minusS {r c} (a : AProg R r c) (s : AProg R 1 1) : AProg R r c
  | mulS {r c} (a : AProg R r c) (s : AProg R 1 1) : AProg R r c
  | sPlus {r c} (s : AProg R 1 1) (a : AProg R r c) : AProg R r c
  | sMinus {r c} (s : AProg R 1 1) (a : AProg R r c) : AProg R r c
  | sMul {r c} (s : AProg R 1 1) (a : AProg R r c) : AProg R r c
  /-- `Power`. -/
  | pow {r} (a : AProg R r r) (n : ℕ) : AProg R r r
  /-- `Transpose`. -/
  | transpose {r c} (a : AProg R r c) : AProg R c r
  /-- `AsSimplifiedExpression`. -/
  | simp {r c} (a : AProg R r c) : AProg R r c
  /-- `At`. -/
  | at {r c} (a : AProg R r c) (i : Fin r) (j : Fin c) : AProg R 1 1
  /-- `HStack`, `VStack`. -/
  | hstack {r m} (cs : Fin (m + 1) → ℕ) (a : ∀ k, AProg R r (cs k)) : AProg R r (∑ k, cs k)
  | vstack {c m} (rs : Fin (m + 1) → ℕ) (a : ∀ k, AProg R (rs k) c) : AProg R (∑ k, rs k) c
  /-- `DerivativeWrt`. -/
  | deriv {r c} (a : AProg R r c) (v : Var R) : AProg R r c
  /-- `Substitute`. -/
  | subst {r c} (a : AProg R r c) (v : Var R) (s : AProg R 1 1) : AProg R r c

namespace AProg

/-- The scalar in an expression: the type assertion a caller needs before passing it on as a scalar. -/
def asScalar (e : Expr R) : Go (Scalar R) :=
  match e with
  | .s x => .ok x
  | _ => .error .typeAssert

/-- The calls, in the order written. -/
def run [GoNum R] : {r c : ℕ} → AProg R r c → Go (Expr R)
  | _, _, .scalar p => do return .s (← p.run)
  | _, _, .kvec f => return .v (.k (List.ofFn f))
  | _, _, .vvec f => return .v (.v (List.ofFn f))
  | _, _, .kmat f => return .m (.k (List.ofFn fun i => List.ofFn (f i)))
  | _, _, .vmat f => return .m (.v (List.ofFn fun i => List.ofFn (f i)))
  | _, _, .plus a b => do (← a.run).plus (← b.run)
  | _, _, .minus a b => do (← a.run).minus (← b.run)
  | _, _, .mul a b => do (← a.run).mul (← b.run)
  | _, _, .plusS a s => do (← a.run).plus (.s (← asScalar (← s.run)))
  | _, _, .minusS a s => do (← a.run).minus (.s (← asScalar (← s.run)))
  | _, _, .mulS a s => do (← a.run).mul (.s (← asScalar (← s.run)))
  | _, _, .sPlus s a => do (Expr.s (← asScalar (← s.run))).plus (← a.run)
  | _, _, .sMinus s a => do (Expr.s (← asScalar (← s.run))).minus (← a.run)
  | _, _, .sMul s a => do (Expr.s (← asScalar (← s.run))).mul (← a.run)
  | _, _, .pow a n => do (← a.run).power n
  | _, _, .transpose a => do (← a.run).transpose
  | _, _, .simp a => do (← a.run).asSimplified
  | _, _, .at a i j => do return .s (← (← a.run).at (i : ℕ) (j : ℕ))
  | _, _, .hstack (m := m) _ a => do Verif.hstack (← (List.finRange (m + 1)).mapM fun k => (a k).run)
  | _, _, .vstack (m := m) _ a => do Verif.vstack (← (List.finRange (m + 1)).mapM fun k => (a k).run)
  | _, _, .deriv a v => do (← a.run).derivative v
  | _, _, .subst a v s => do (← a.run).substitute v (← asScalar (← s.run))

/-- The matrix the calls stand for. -/
noncomputable def meaning [Field R] : {r c : ℕ} → AProg R r c → Matrix (Fin r) (Fin c) (MvPolynomial ℕ R)
  | _, _, .scalar p => Matrix.of fun _ _ => p.meaning
  | _, _, .kvec f => Matrix.of fun i _ => C (f i)
  | _, _, .vvec f => Matrix.of fun i _ => X (f i).id
  | _, _, .kmat f => Matrix.of fun i j => C (f i j)
  | _, _, .vmat f => Matrix.of fun i j => X (f i j).id
  | _, _, .plus a b => a.meaning + b.meaning
  | _, _, .minus a b => a.meaning - b.meaning
  | _, _, .mul a b => a.meaning * b.meaning
  | _, _, .plusS a s => Matrix.of fun i j => a.meaning i j + s.meaning 0 0
  | _, _, .minusS a s => Matrix.of fun i j => a.meaning i j - s.meaning 0 0
  | _, _, .mulS a s => Matrix.of fun i j => a.meaning i j * s.meaning 0 0
  | _, _, .sPlus s a => Matrix.of fun i j => s.meaning 0 0 + a.meaning i j
  | _, _, .sMinus s a => Matrix.of fun i j => s.meaning 0 0 - a.meaning i j
  | _, _, .sMul s a => Matrix.of fun i j => s.meaning 0 0 * a.meaning i j
  | _, _, .pow a n => a.meaning ^ n
  | _, _, .transpose a => a.meaning.transpose
  | _, _, .simp a => a.meaning
  | _, _, .at a i j => Matrix.of fun _ _ => a.meaning i j
  | _, _, .hstack _ a => Matrix.of fun i j =>
      ((List.ofFn fun k => List.ofFn fun l => (a k).meaning i l).flatten)[(j : ℕ)]?.getD 0
  | _, _, .vstack _ a => Matrix.of fun i j =>
      (((List.ofFn fun k => List.ofFn fun l => (a k).meaning l).flatten)[(i : ℕ)]?.getD fun _ => 0) j
  | _, _, .deriv a v => a.meaning.map (pderiv v.id)
  | _, _, .subst a v s => a.meaning.map (bind₁ fun i => if i = v.id then s.meaning 0 0 else X i)

/-- The variables the program names. -/
def Names : {r c : ℕ} → AProg R r c → Var R → Prop
  | _, _, .scalar p, w => p.Names w
  | _, _, .kvec _, _ | _, _, .kmat _, _ => False
  | _, _, .vvec f, w => ∃ i, w = f i
  | _, _, .vmat f, w => ∃ i j, w = f i j
  | _, _, .plus a b, w | _, _, .minus a b, w | _, _, .mul a b, w => a.Names w ∨ b.Names w
  | _, _, .plusS a s, w | _, _, .minusS a s, w | _, _, .mulS a s, w => a.Names w ∨ s.Names w
  | _, _, .sPlus s a, w | _, _, .sMinus s a, w | _, _, .sMul s a, w => s.Names w ∨ a.Names w
  | _, _, .pow a _, w | _, _, .transpose a, w | _, _, .simp a, w | _, _, .at a _ _, w => a.Names w
  | _, _, .hstack _ a, w | _, _, .vstack _ a, w => ∃ k, (a k).Names w
  | _, _, .deriv a v, w => a.Names w ∨ w = v
  | _, _, .subst a v s, w => a.Names w ∨ w = v ∨ s.Names w

/-- Conditions on the calls: the maps of `SubstituteAccordingTo` have distinct keys (as Go maps do), and `DerivativeWrt` is
not called on a `MonomialVector` (`derivative_monoVec_false`). -/
def Regular [GoNum R] : {r c : ℕ} → AProg R r c → Prop
  | _, _, .scalar p => p.Keys
  | _, _, .kvec _ | _, _, .kmat _ | _, _, .vvec _ | _, _, .vmat _ => True
  | _, _, .plus a b | _, _, .minus a b | _, _, .mul a b => a.Regular ∧ b.Regular
  | _, _, .plusS a s | _, _, .minusS a s | _, _, .mulS a s => a.Regular ∧ s.Regular
  | _, _, .sPlus s a | _, _, .sMinus s a | _, _, .sMul s a => s.Regular ∧ a.Regular
  | _, _, .pow a _ | _, _, .transpose a | _, _, .simp a | _, _, .at a _ _ => a.Regular
  | _, _, .hstack _ a | _, _, .vstack _ a => ∀ k, (a k).Regular
  | _, _, .deriv a _ => a.Regular ∧ ∀ l, a.run ≠ .ok (.v (.m l))
  | _, _, .subst a _ s => a.Regular ∧ s.Regular

/-- How the terms of entry `(i, j)` of the result can be written, and whether no two of them can be confused on the way. -/
def entry : {r c : ℕ} → AProg R r c → ℕ → ℕ → Entry
  | _, _, .scalar p => fun _ _ => .make p.shape.ws p.checked
  | _, _, .kvec _ | _, _, .kmat _ => fun _ _ => .const
  | _, _, .vvec (r := r) f => fun i _ => if h : i < r + 1 then .var (f ⟨i, h⟩).id else .const
  | _, _, .vmat (r := r) (c := c) f => fun i j =>
      if h : i < r + 1 ∧ j < c + 1 then .var (f ⟨i, h.1⟩ ⟨j, h.2⟩).id else .const
  | _, _, .plus a b => fun i j => (a.entry i j).add (b.entry i j)
  | _, _, .minus a b => fun i j => (a.entry i j).add ((b.entry i j).mul .const)
  | _, _, .plusS a s => fun i j => (a.entry i j).add (s.entry 0 0)
  | _, _, .minusS a s => fun i j => (a.entry i j).add ((s.entry 0 0).mul .const)
  | _, _, .sPlus s a => fun i j => (s.entry 0 0).add (a.entry i j)
  | _, _, .sMinus s a => fun i j => (s.entry 0 0).add ((a.entry i j).mul .const)
  | _, _, .mul (n := n) a b => fun i j => Entry.dot a.entry b.entry i j n
  | _, _, .mulS a s => fun i j => (a.entry i j).mul (s.entry 0 0)
  | _, _, .sMul s a => fun i j => (s.entry 0 0).mul (a.entry i j)
  | _, _, .pow (r := r) a n => Entry.pow r a.entry n
  | _, _, .transpose a => fun i j => a.entry j i
  | _, _, .simp a => a.entry
  | _, _, .at a i j => fun _ _ => a.entry i j
  | _, _, .hstack cs a => fun i j =>
      ((List.ofFn fun k => (List.range (cs k)).map fun l => (a k).entry i l).flatten)[j]?.getD .const
  | _, _, .vstack rs a => fun i j =>
      (((List.ofFn fun k => (List.range (rs k)).map fun l => (a k).entry l).flatten)[i]?.getD fun _ => .const) j
  | _, _, .deriv a v => fun i j => (a.entry i j).deriv v.id
  | _, _, .subst a v s => fun i j => (a.entry i j).subst v.id (s.entry 0 0)

/-- The check: no two terms of an entry can be confused. -/
def checked {r c : ℕ} (p : AProg R r c) : Bool :=
  (List.range r).all fun i => (List.range c).all fun j => (p.entry i j).ok

end AProg

/-! ## What is kept by the calls -/

section Steps

variable [Field R] [LinearOrder R] {U : Var R → Prop} {r n c : ℕ} {a b e : Expr R} {s : Scalar R}
  {M N : Matrix (Fin r) (Fin c) (MvPolynomial ℕ R)} {S : Matrix (Fin 1) (Fin 1) (MvPolynomial ℕ R)}
  {A B E : ℕ → ℕ → Entry}

/-- The entries of `e` are well formed, over the variables `U`, with the terms that `E` foresees, and where the check says
yes they are those of `M`. -/
def HoldsE (U : Var R → Prop) (E : ℕ → ℕ → Entry) (M : Matrix (Fin r) (Fin c) (MvPolynomial ℕ R)) (e : Expr R) : Prop :=
  EArr r c (fun i j => ((E i j).tagged (extM M i j)).Holds U) e

theorem holdsE_of {x : Go (Expr R)} {f : ℕ → ℕ → Tagged R}
    (h : Go.Post x (EArr r c fun i j => (f i j).Holds U)) (hS : ∀ i j, (E i j).Sound)
    (hf : ∀ (i : Fin r) (j : Fin c), ∃ g, (f i j).Leq ((E i j).tagged g) ∧ g = M i j) (he : x = .ok e) : HoldsE U E M e :=
  (h e he).mono fun i j a hi hj ha => by
    obtain ⟨g, h1, h2⟩ := hf ⟨i, hi⟩ ⟨j, hj⟩
    rw [extM_of M hi hj, ← h2]
    exact Tagged.Holds.leq ha h1 (hS i j)

theorem holdsE_s : HoldsE U E S (.s s) ↔ ((E 0 0).tagged (S 0 0)).Holds U s := by
  unfold HoldsE
  rw [earr_s_iff]
  rfl

theorem HoldsE.good (h : HoldsE U E M e) : e.All (Good U Set.univ) := EArr.all h fun _ _ _ h => h.1

theorem HoldsE.canon (h : HoldsE U E M e) : e.Canon := EArr.all h fun _ _ _ h => (good_iff.mp h.1).1

theorem negOne_holds : (Entry.const.tagged (-1 : MvPolynomial ℕ R)).Holds U (.k negOne) := by
  have := Entry.holds_const (U := U) (-1 : R)
  rwa [map_neg, C_1] at this

private theorem holdsE_mul {M : Matrix (Fin r) (Fin n) (MvPolynomial ℕ R)}
    {N : Matrix (Fin n) (Fin c) (MvPolynomial ℕ R)} (hr : 0 < r) (hn : 0 < n) (hc : 0 < c) (ha : HoldsE U A M a)
    (hb : HoldsE U B N b) (he : a.mul b = .ok e) : HoldsE U (fun i j => Entry.dot A B i j n) (M * N) e := by
  refine holdsE_of (Expr.mul_post mulSem_holds mulSem_holds hr hn hc ha hb) (fun i j => Entry.dot_sound _ _ _ _ _)
    (fun i j => ⟨_, Entry.leq_dot _ _ _, ?_⟩) he
  rw [psumG_sum, Matrix.mul_apply, Finset.sum_range]
  exact Finset.sum_congr rfl fun k _ => by rw [extM_fin, extM_fin]

private theorem holdsE_matPow {M : Matrix (Fin r) (Fin r) (MvPolynomial ℕ R)} {a m : Mat R} {n : ℕ} (hr : 0 < r)
    (ha : HoldsE U A M (.m a)) (he : a.power n = .ok m) : HoldsE U (Entry.pow r A n) (M ^ n) (.m m) := by
  have hone : MArr r r (fun i j x => ((Entry.pow r A 0 i j).tagged
      (extM (1 : Matrix (Fin r) (Fin r) (MvPolynomial ℕ R)) i j)).Holds U x) (.k (identityRows r)) := by
    refine Arr.map_iff.mpr ?_
    unfold identityRows
    refine (LArr.range r).map fun i i' hi hi' => (LArr.range r).map fun j j' hj hj' => ?_
    subst hi' hj'
    rw [extM_of _ hi hj, Matrix.one_apply]
    by_cases h : i' = j'
    · subst h
      rw [if_pos rfl, if_pos rfl, ← C_1]
      exact Entry.holds_const 1
    · rw [if_neg h, if_neg (by simpa using h), ← C_0]
      exact Entry.holds_const 0
  unfold Mat.power at he
  obtain ⟨-, -, he⟩ := Go.bind_eq_ok.mp he
  obtain ⟨d, hd, he⟩ := Go.bind_eq_ok.mp he
  have hd' := MArr.dims (earr_m_iff.mp ha) hr fun _ _ _ h => h.1.check
  rw [hd', Except.ok.injEq] at hd
  subst hd
  rw [if_neg (by simp), if_neg (by omega), if_neg (by omega)] at he
  obtain ⟨e0, h0, h1, m0, rfl⟩ := kmPlus_k_ok (c := r) hr hr hone GoNum.zero
    (Q := fun i j x => ((Entry.pow r A 0 i j).tagged
      (extM (1 : Matrix (Fin r) (Fin r) (MvPolynomial ℕ R)) i j)).Holds U x) (by
      intro i j x _ _ hx
      have e : GoNum.add (GoNum.mul GoNum.zero GoNum.one) x = x := by
        show (0 : R) * 1 + x = x
        ring
      rw [e]
      exact hx)
  rw [h0] at he
  simp only [Go.pure_eq, Go.ok_bind, Int.toNat_natCast] at he
  refine LArr.foldlM_post (n := n) (I := fun i acc => HoldsE U (Entry.pow r A i) (M ^ i) (.m acc)) (LArr.range n)
    (by rw [pow_zero]; exact h1) (fun i acc j hi hacc _ => ?_) m he
  refine Go.post_bind' fun x hx => ?_
  have h2 : HoldsE U (Entry.pow r A (i + 1)) (M ^ i * M) x := holdsE_mul hr hr hr hacc ha hx
  rw [← pow_succ] at h2
  cases x with
  | m x => exact Go.post_pure h2
  | s x => exact Go.post_throw
  | v x => exact Go.post_throw

private theorem one_by_one_pow (S : Matrix (Fin 1) (Fin 1) (MvPolynomial ℕ R)) (n : ℕ) : (S ^ n) 0 0 = S 0 0 ^ n := by
  induction n with
  | zero => simp
  | succ n ih => rw [pow_succ, pow_succ, Matrix.mul_apply, Fin.sum_univ_one, ih]

private theorem holds_powLoop {x y z : Scalar R} {f g : MvPolynomial ℕ R} (hx : ((A 0 0).tagged f).Holds U x) (n k : ℕ)
    (hg : ((Entry.pow 1 A k 0 0).tagged g).Holds U y) (hz : powLoop x n y = .ok z) :
    ((Entry.pow 1 A (n + k) 0 0).tagged (g * f ^ n)).Holds U z := by
  induction n generalizing k y g with
  | zero =>
    cases hz
    rw [Nat.zero_add, pow_zero, mul_one]
    exact hg
  | succ n ih =>
    obtain ⟨t, ht, hz⟩ := Go.bind_eq_ok.mp hz
    rw [show n + 1 + k = n + (k + 1) by omega, pow_succ', ← mul_assoc]
    refine ih (k + 1) ?_ hz
    obtain ⟨t', h1, h2⟩ := mulSem_holds.mul hg hx
    rw [ht, Except.ok.injEq] at h1
    subst h1
    refine Tagged.Holds.leq (mulSem_holds.zadd (G1 := Tagged.Holds U) (G2 := Tagged.Holds U) h2) ?_ (Entry.pow_sound _ _ _ _ _)
    have := Entry.leq_dot (A := Entry.pow 1 A k) (B := A) (F := fun _ _ => g) (G := fun _ _ => f) 0 0 1
    rw [show psumG (fun _ _ => g) (fun _ _ => f) 0 0 1 = 0 + g * f from rfl, zero_add] at this
    exact this

private theorem holdsE_pow {M : Matrix (Fin r) (Fin r) (MvPolynomial ℕ R)}
    {n : ℕ} (hr : 0 < r) (ha : HoldsE U A M a) (he : a.power n = .ok e) : HoldsE U (Entry.pow r A n) (M ^ n) e := by
  have hs : ∀ {x y : Scalar R} {S : Matrix (Fin 1) (Fin 1) (MvPolynomial ℕ R)}, ((A 0 0).tagged (S 0 0)).Holds U x →
      x.power n = .ok y → ((Entry.pow 1 A n 0 0).tagged ((S ^ n) 0 0)).Holds U y := by
    intro x y S hx hy
    have e : x.power n = powLoop x n (.k GoNum.one) := by
      unfold Scalar.power
      rw [hx.1.check, Go.ok_bind, if_neg (by omega)]
      rfl
    rw [e] at hy
    have := holds_powLoop hx n 0 (Entry.holds_const 1) hy
    rwa [C_1, one_mul, ← one_by_one_pow] at this
  cases a with
  | s x =>
    obtain ⟨rfl, -⟩ := earr_s_dims ha
    obtain ⟨y, hy, he⟩ := Go.bind_eq_ok.mp he
    cases he
    exact holdsE_s.mpr (hs (holdsE_s.mp ha) hy)
  | v x =>
    obtain rfl : r = 1 := earr_v_cols hr ha
    have h1 := earr_v_iff.mp ha
    obtain ⟨y, hy, he⟩ := Go.bind_eq_ok.mp he
    cases he
    have hlen : x.entries.length = 1 := h1.1
    obtain ⟨z, hz⟩ := List.length_eq_one_iff.mp hlen
    have hzg : ((A 0 0).tagged (M 0 0)).Holds U z := h1.2 0 z (by rw [hz]; rfl)
    rw [vec_power_single (Vec.single_canon ha.canon hz).1 hz] at hy
    exact holdsE_s.mpr (hs hzg hy)
  | m x =>
    obtain ⟨y, hy, he⟩ := Go.bind_eq_ok.mp he
    cases he
    exact holdsE_matPow hr ha hy

/-- Three lists of the same length, related entry by entry. -/
private def Rel3 {α β γ : Type} (Q : α → β → γ → Prop) (a : List α) (b : List β) (c : List γ) : Prop :=
  a.length = c.length ∧ b.length = c.length ∧
    ∀ (i : ℕ) (x : α) (y : β) (z : γ), a[i]? = some x → b[i]? = some y → c[i]? = some z → Q x y z

private theorem rel3_append {α β γ : Type} {Q : α → β → γ → Prop} {a a' : List α} {b b' : List β} {c c' : List γ}
    (h : Rel3 Q a b c) (h' : Rel3 Q a' b' c') : Rel3 Q (a ++ a') (b ++ b') (c ++ c') := by
  obtain ⟨h1, h2, h3⟩ := h
  obtain ⟨h1', h2', h3'⟩ := h'
  refine ⟨by simp [h1, h1'], by simp [h2, h2'], fun i x y z hx hy hz => ?_⟩
  rw [List.getElem?_append] at hx hy hz
  by_cases hi : i < c.length
  · rw [if_pos (by omega)] at hx hy hz
    exact h3 i x y z hx hy hz
  · rw [if_neg (by omega)] at hx hy hz
    rw [h1] at hx
    rw [h2] at hy
    exact h3' _ x y z hx hy hz

private theorem rel3_flatten {α β γ κ : Type} {Q : α → β → γ → Prop} {a : κ → List α} {b : κ → List β} {c : κ → List γ}
    (ks : List κ) (h : ∀ k, Rel3 Q (a k) (b k) (c k)) :
    Rel3 Q (ks.map a).flatten (ks.map b).flatten (ks.map c).flatten := by
  induction ks with
  | nil => exact ⟨rfl, rfl, fun i x y z hx => by simp at hx⟩
  | cons k ks ih =>
    rw [List.map_cons, List.map_cons, List.map_cons, List.flatten_cons, List.flatten_cons, List.flatten_cons]
    exact rel3_append (h k) ih

private theorem holdsE_grid {g : List (List (Scalar R))} (hr : 0 < r) (hc : 0 < c)
    (h : Arr r c (fun i j => ((E i j).tagged (extM M i j)).Holds U) g) (he : concretizeM g = .ok e) : HoldsE U E M e := by
  obtain ⟨e', h1, h2, -⟩ := concretizeM_conv h hr hc (fun _ _ _ _ => (stable_holds _).toConv) fun _ _ _ _ _ h => h.1.check
  rw [he, Except.ok.injEq] at h1
  exact h1 ▸ h2

private theorem holdsE_hstack {m : ℕ} {cs : Fin (m + 1) → ℕ} {As : Fin (m + 1) → ℕ → ℕ → Entry}
    {Ms : ∀ k, Matrix (Fin r) (Fin (cs k)) (MvPolynomial ℕ R)} {es : Fin (m + 1) → Expr R} (hr : 0 < r)
    (hc : ∀ k, 0 < cs k) (ha : ∀ k, HoldsE U (As k) (Ms k) (es k)) (he : hstack (List.ofFn es) = .ok e) :
    HoldsE U (fun i j => ((List.ofFn fun k => (List.range (cs k)).map fun l => As k i l).flatten)[j]?.getD .const)
      (Matrix.of fun i (j : Fin (∑ k, cs k)) =>
        ((List.ofFn fun k => List.ofFn fun l => Ms k i l).flatten)[(j : ℕ)]?.getD 0) e := by
  have hne : List.ofFn es ≠ [] := by simp
  have hall : ∀ e ∈ List.ofFn es, e.Canon ∧ ∃ c, 0 < c ∧ e.Shape r c := by
    intro e he
    obtain ⟨k, rfl⟩ := (List.mem_ofFn' _ _).mp he
    exact ⟨(ha k).canon, cs k, hc k, EArr.shape (ha k)⟩
  rw [hstack_eq hne hr hall] at he
  refine holdsE_grid hr (Finset.sum_pos (fun k _ => hc k) ⟨0, Finset.mem_univ _⟩) ?_ he
  refine (LArr.range r).map fun i i' hi hi' => ?_
  subst hi'
  have key : Rel3 (fun (t : Entry) (f : MvPolynomial ℕ R) x => (t.tagged f).Holds U x)
      (List.ofFn fun k => (List.range (cs k)).map fun l => As k i' l).flatten
      (List.ofFn fun k => List.ofFn fun l => Ms k ⟨i', hi⟩ l).flatten
      ((List.ofFn es).map fun e => e.grid[i']?.getD []).flatten := by
    rw [List.map_ofFn]
    simp only [List.ofFn_eq_map (n := m + 1)]
    refine rel3_flatten _ fun k => ?_
    have h1 := ha k
    have hlen : i' < (es k).grid.length := by rw [h1.1]; exact hi
    have h2 := h1.2 i' _ (List.getElem?_eq_getElem hlen)
    show Rel3 _ _ _ ((es k).grid[i']?.getD [])
    rw [List.getElem?_eq_getElem hlen, Option.getD_some]
    refine ⟨by simp [h2.1], by simp [h2.1], fun j x y z hx hy hz => ?_⟩
    have hj : j < cs k := by
      have := (List.getElem?_eq_some_iff.mp hz).1
      rwa [h2.1] at this
    have h3 := h2.2 j z hz
    beta_reduce at h3
    rw [extM_of _ hi hj] at h3
    simp [hj] at hx hy
    subst hx hy
    exact h3
  have hlen : ((List.ofFn es).map fun e => e.grid[i']?.getD []).flatten.length = ∑ k, cs k := by
    rw [← key.2.1, List.length_flatten, List.map_ofFn, List.sum_ofFn]
    exact Finset.sum_congr rfl fun k _ => by simp
  refine ⟨hlen, fun j z hz => ?_⟩
  have hj : j < ∑ k, cs k := by
    have := (List.getElem?_eq_some_iff.mp hz).1
    rwa [hlen] at this
  have e1 := List.getElem?_eq_getElem (l := (List.ofFn fun k => (List.range (cs k)).map fun l => As k i' l).flatten)
    (i := j) (by rw [key.1, hlen]; exact hj)
  have e2 := List.getElem?_eq_getElem (l := (List.ofFn fun k => List.ofFn fun l => Ms k ⟨i', hi⟩ l).flatten)
    (i := j) (by rw [key.2.1, hlen]; exact hj)
  have := key.2.2 j _ _ z e1 e2 hz
  beta_reduce
  rw [extM_of _ hi hj, Matrix.of_apply]
  simp only [e1, e2, Option.getD_some]
  exact this

private theorem holdsE_vstack {m : ℕ} {rs : Fin (m + 1) → ℕ} {As : Fin (m + 1) → ℕ → ℕ → Entry}
    {Ms : ∀ k, Matrix (Fin (rs k)) (Fin c) (MvPolynomial ℕ R)} {es : Fin (m + 1) → Expr R} (hc : 0 < c)
    (hr : ∀ k, 0 < rs k) (ha : ∀ k, HoldsE U (As k) (Ms k) (es k)) (he : vstack (List.ofFn es) = .ok e) :
    HoldsE U (fun i j => (((List.ofFn fun k => (List.range (rs k)).map fun l => As k l).flatten)[i]?.getD
        fun _ => .const) j)
      (Matrix.of fun (i : Fin (∑ k, rs k)) j =>
        (((List.ofFn fun k => List.ofFn fun l => Ms k l).flatten)[(i : ℕ)]?.getD fun _ => 0) j) e := by
  have hne : List.ofFn es ≠ [] := by simp
  have hall : ∀ e ∈ List.ofFn es, e.Canon ∧ ∃ r, 0 < r ∧ e.Shape r c := by
    intro e he
    obtain ⟨k, rfl⟩ := (List.mem_ofFn' _ _).mp he
    exact ⟨(ha k).canon, rs k, hr k, EArr.shape (ha k)⟩
  rw [vstack_eq hne hc hall] at he
  refine holdsE_grid (Finset.sum_pos (fun k _ => hr k) ⟨0, Finset.mem_univ _⟩) hc ?_ he
  have key : Rel3 (fun (t : ℕ → Entry) (f : Fin c → MvPolynomial ℕ R) (row : List (Scalar R)) =>
      row.length = c ∧ ∀ (j : Fin c) x, row[(j : ℕ)]? = some x → ((t j).tagged (f j)).Holds U x)
      (List.ofFn fun k => (List.range (rs k)).map fun l => As k l).flatten
      (List.ofFn fun k => List.ofFn fun l => Ms k l).flatten
      ((List.ofFn es).map Expr.grid).flatten := by
    rw [List.map_ofFn]
    simp only [List.ofFn_eq_map (n := m + 1)]
    refine rel3_flatten _ fun k => ?_
    have h1 := ha k
    refine ⟨by simpa using h1.1.symm, by simpa using h1.1.symm, fun i x y z hx hy hz => ?_⟩
    have hi : i < rs k := by
      have := (List.getElem?_eq_some_iff.mp hz).1
      rwa [show ((Expr.grid ∘ es) k).length = rs k from h1.1] at this
    have h2 := h1.2 i z hz
    simp [hi] at hx hy
    subst hx hy
    refine ⟨h2.1, fun j w hw => ?_⟩
    have h3 := h2.2 j w hw
    beta_reduce at h3
    rwa [extM_of _ hi j.2] at h3
  have hlen : ((List.ofFn es).map Expr.grid).flatten.length = ∑ k, rs k := by
    rw [← key.2.1, List.length_flatten, List.map_ofFn, List.sum_ofFn]
    exact Finset.sum_congr rfl fun k _ => by simp
  refine ⟨hlen, fun i z hz => ?_⟩
  have hi : i < ∑ k, rs k := by
    have := (List.getElem?_eq_some_iff.mp hz).1
    rwa [hlen] at this
  have e1 := List.getElem?_eq_getElem (l := (List.ofFn fun k => (List.range (rs k)).map fun l => As k l).flatten)
    (i := i) (by rw [key.1, hlen]; exact hi)
  have e2 := List.getElem?_eq_getElem (l := (List.ofFn fun k => List.ofFn fun l => Ms k l).flatten)
    (i := i) (by rw [key.2.1, hlen]; exact hi)
  obtain ⟨h1, h2⟩ := key.2.2 i _ _ z e1 e2 hz
  refine ⟨h1, fun j x hx => ?_⟩
  have hj : j < c := by
    have := (List.getElem?_eq_some_iff.mp hx).1
    rwa [h1] at this
  have := h2 ⟨j, hj⟩ x hx
  beta_reduce
  rw [extM_of _ hi hj, Matrix.of_apply]
  simp only [e1, e2, Option.getD_some]
  exact this

private theorem derivPoly_post {v : Var R} {p : Poly R} {Q : Scalar R → Prop} (h : Go.Ok (p.derivative v) Q) :
    Go.Post (p.derivPoly v) (fun q => Q (.poly q)) := by
  intro q hq
  obtain ⟨y, h1, h2⟩ := h
  unfold Poly.derivPoly at hq
  rw [h1, Go.ok_bind] at hq
  cases y with
  | poly x => cases hq; exact h2
  | k x => cases hq
  | var x => cases hq
  | mono x => cases hq

private theorem holdsE_deriv {v : Var R} (hr : 0 < r) (hc : 0 < c) (ha : HoldsE U A M a) (hv : v.OK)
    (hnm : ∀ l, a ≠ .v (.m l)) (he : a.derivative v = .ok e) :
    HoldsE U (fun i j => (A i j).deriv v.id) (M.map (pderiv v.id)) e := by
  have hop : ∀ i j x, ((A i j).tagged (extM M i j)).Holds U x →
      Go.Ok (x.derivative v) ((((A i j).deriv v.id).tagged (pderiv v.id (extM M i j))).Holds U) := by
    intro i j x hx
    obtain ⟨h1, -, h3⟩ := good_iff.mp hx.1
    obtain ⟨y, y1, y2, y3⟩ := derivative_total h1 hv
    exact Entry.holds_deriv hv hx ⟨y, y1, good_mentions y2 y.termsIn_univ fun w hw => h3 w (y3 w hw)⟩
      fun f hf => (Shape.has_deriv ⟨hf, fun _ _ => rfl, fun _ _ => rfl⟩ hv).mono fun _ h => h.den
  have hfin : EArr r c (fun i j => (((A i j).deriv v.id).tagged (pderiv v.id (extM M i j))).Holds U) e →
      HoldsE U (fun i j => (A i j).deriv v.id) (M.map (pderiv v.id)) e := fun h => h.mono fun i j x hi hj hx => by
    rw [extM_of _ hi hj] at hx ⊢
    exact hx
  apply hfin
  have hdir : a.DerivDirect →
      EArr r c (fun i j => (((A i j).deriv v.id).tagged (pderiv v.id (extM M i j))).Holds U) e := by
    intro hd
    obtain ⟨e', h1, h2, -⟩ := Expr.derivative_ok (v := v)
      (Q' := fun i j => (((A i j).deriv v.id).tagged (pderiv v.id (extM M i j))).Holds U) hr hc hd ha
      (fun _ _ _ h => h.1.check) hv.check (fun _ _ _ _ => (stable_holds _).toConv)
      (fun i j x _ _ hx => hop i j x hx)
    rw [he, Except.ok.injEq] at h1
    exact h1 ▸ h2
  match a, hdir, hnm, ha, he with
  | .s x, hdir, _, _, _ => exact hdir trivial
  | .v (.k l), hdir, _, _, _ => exact hdir trivial
  | .v (.v l), hdir, _, _, _ => exact hdir trivial
  | .v (.m l), _, hnm, _, _ => exact absurd rfl (hnm l)
  | .v (.p l), _, _, ha, he =>
    obtain rfl : c = 1 := earr_v_cols hr ha
    refine (show Go.Post ((Expr.v (.p l)).derivative v) _ from ?_) e he
    refine Go.post_bind' fun b hb => Go.post_pure (earr_v_iff.mpr ?_)
    revert b
    show Go.Post (Vec.derivative (.p l) v) _
    unfold Vec.derivative
    refine Go.Post.bind (LArr.mapM_post
      (Q' := fun i q => (((A i 0).deriv v.id).tagged (pderiv v.id (extM M i 0))).Holds U (.poly q))
      (LArr.map_iff.mp (earr_v_iff.mp ha)) fun i p _ hp => derivPoly_post (hop i 0 (.poly p) hp))
      fun q hq => Go.post_pure (LArr.map_iff.mpr hq)
  | .m (.k l), hdir, _, _, _ => exact hdir trivial
  | .m (.v l), hdir, _, _, _ => exact hdir trivial
  | .m (.m l), hdir, _, _, _ => exact hdir trivial
  | .m (.p l), _, _, ha, he =>
    refine (show Go.Post ((Expr.m (.p l)).derivative v) _ from ?_) e he
    refine Go.post_bind' fun b hb => Go.post_pure (earr_m_iff.mpr ?_)
    revert b
    show Go.Post (Mat.derivative (.p l) v) _
    unfold Mat.derivative
    refine Go.post_bind' fun _ _ => Go.post_bind' fun _ _ => ?_
    refine Go.Post.bind (Arr.mapM_post
      (Q' := fun i j q => (((A i j).deriv v.id).tagged (pderiv v.id (extM M i j))).Holds U (.poly q))
      (Arr.map_iff.mp (earr_m_iff.mp ha)) fun i j p _ _ hp => derivPoly_post (hop i j (.poly p) hp))
      fun q hq => Go.post_pure (Arr.map_iff.mpr hq)

theorem holdsE_subst {v : Var R} {g : MvPolynomial ℕ R} {b : Entry} (hr : 0 < r) (ha : HoldsE U A M a)
    (hc : ∀ w, U w → w.id = v.id → w = v) (hv : v.OK) (hs : (b.tagged g).Holds U s)
    (he : a.substitute v s = .ok e) :
    HoldsE U (fun i j => (A i j).subst v.id b) (M.map (bind₁ fun i => if i = v.id then g else X i)) e := by
  have hop : ∀ i j x, ((A i j).tagged (extM M i j)).Holds U x → Go.Ok (x.substitute v s)
      ((((A i j).subst v.id b).tagged (bind₁ (fun i => if i = v.id then g else X i) (extM M i j))).Holds U) := by
    intro i j x hx
    obtain ⟨h1, -, h3⟩ := good_iff.mp hx.1
    obtain ⟨h1', -, h3'⟩ := good_iff.mp hs.1
    obtain ⟨y, y1, y2, y3⟩ := substitute_total h1 hv h1'
    have henv : SameEnv v x := fun w hw hi => by rw [hc w (h3 w hw) hi]
    exact Entry.holds_subst hx hs
      ⟨y, y1, good_mentions y2 y.termsIn_univ fun w hw => (y3 w hw).elim (h3 w) (h3' w)⟩
      fun hok hf hg => (Shape.has_substitute (b := Shape.full b.ws) hok ⟨hf, fun _ _ => rfl, fun _ _ => rfl⟩
        ⟨hg, fun _ _ => rfl, fun _ _ => rfl⟩ hv henv).mono fun _ h => h.den
  obtain ⟨e', h1, h2, -⟩ := Expr.substitute_ok (v := v) (s := s)
    (Q' := fun i j => (((A i j).subst v.id b).tagged
      (bind₁ (fun i => if i = v.id then g else X i) (extM M i j))).Holds U) hr ha
    (fun _ _ _ h => h.1.check) hv.check hs.1.check
    (fun _ _ _ _ => (stable_holds _).toConv) (fun i j x _ _ hx => hop i j x hx)
  rw [he, Except.ok.injEq] at h1
  subst h1
  refine h2.mono fun i j x hi hj hx => ?_
  rw [extM_of _ hi hj] at hx ⊢
  exact hx

end Steps

/-! ## The theorem -/

private theorem mapM_finRange {α : Type} {n : ℕ} {f : Fin n → Go α} {l : List α}
    (h : (List.finRange n).mapM f = .ok l) : ∃ es : Fin n → α, l = List.ofFn es ∧ ∀ k, f k = .ok (es k) := by
  have key : ∀ (ks : List (Fin n)) (l : List α), ks.mapM f = .ok l → ∀ k ∈ ks, ∃ y, f k = .ok y := by
    intro ks
    induction ks with
    | nil => intro _ _ k hk; cases hk
    | cons a ks ih =>
      intro l h k hk
      rw [List.mapM_cons] at h
      obtain ⟨y, h1, h⟩ := Go.bind_eq_ok.mp h
      obtain ⟨ys, h2, -⟩ := Go.bind_eq_ok.mp h
      rcases List.mem_cons.mp hk with rfl | hk
      · exact ⟨y, h1⟩
      · exact ih ys h2 k hk
  have := fun k => key _ l h k (List.mem_finRange k)
  choose es hes using this
  refine ⟨es, ?_, hes⟩
  rw [Go.mapM_eq fun k _ => hes k, Except.ok.injEq] at h
  rw [← h, List.ofFn_eq_map]

theorem AProg.pos {r c : ℕ} (p : AProg R r c) : 0 < r ∧ 0 < c := by
  induction p with
  | scalar p => exact ⟨one_pos, one_pos⟩
  | kvec f => exact ⟨Nat.succ_pos _, one_pos⟩
  | vvec f => exact ⟨Nat.succ_pos _, one_pos⟩
  | kmat f => exact ⟨Nat.succ_pos _, Nat.succ_pos _⟩
  | vmat f => exact ⟨Nat.succ_pos _, Nat.succ_pos _⟩
  | plus a b iha ihb => exact iha
  | minus a b iha ihb => exact iha
  | mul a b iha ihb => exact ⟨iha.1, ihb.2⟩
  | plusS a s iha ihs => exact iha
  | minusS a s iha ihs => exact iha
  | mulS a s iha ihs => exact iha
  | sPlus s a ihs iha => exact iha
  | sMinus s a ihs iha => exact iha
  | sMul s a ihs iha => exact iha
  | pow a n iha => exact iha
  | transpose a iha => exact iha.symm
  | simp a iha => exact iha
  | «at» a i j iha => exact ⟨one_pos, one_pos⟩
  | hstack cs a iha => exact ⟨(iha 0).1, Finset.sum_pos (fun k _ => (iha k).2) ⟨0, Finset.mem_univ _⟩⟩
  | vstack rs a iha => exact ⟨Finset.sum_pos (fun k _ => (iha k).1) ⟨0, Finset.mem_univ _⟩, (iha 0).2⟩
  | deriv a v iha => exact iha
  | subst a v s iha ihs => exact iha

section
variable [Field R] [LinearOrder R]

theorem AProg.sound {r c : ℕ} (p : AProg R r c) {e : Expr R} {U : Var R → Prop}
    (hU : ∀ v, U v → v.OK) (hc : ∀ v w, U v → U w → v.id = w.id → v = w) (hp : ∀ v, p.Names v → U v)
    (hreg : p.Regular) (he : p.run = .ok e) : HoldsE U p.entry p.meaning e := by
  have asS : ∀ {E : ℕ → ℕ → Entry} {S : Matrix (Fin 1) (Fin 1) (MvPolynomial ℕ R)} {y : Expr R} {t : Scalar R},
      HoldsE U E S y → AProg.asScalar y = .ok t → ((E 0 0).tagged (S 0 0)).Holds U t := by
    intro W S y t h1 h2
    cases y with
    | s x => cases h2; exact holdsE_s.mp h1
    | v x => cases h2
    | m x => cases h2
  have hneg : ∀ (f g : MvPolynomial ℕ R), f + g * -1 = f - g := fun f g => by ring
  induction p generalizing e with
  | scalar p =>
    obtain ⟨x, h1, h2⟩ := Go.bind_eq_ok.mp he
    cases h2
    refine holdsE_s.mpr ⟨?_, fun hok => ⟨Entry.make_sound _ _ hok, ?_⟩⟩
    · obtain ⟨x', h3, h4, h5⟩ := program_total fun v hv => hU v (hp v hv)
      rw [h3, Except.ok.injEq] at h1
      subst h1
      exact good_mentions h4 x'.termsIn_univ fun v hv => hp v (h5 v hv)
    · obtain ⟨x', hx⟩ := Prog.run_checked (Entry.make_ok hok) hU hc hp hreg
      rw [hx.run, Except.ok.injEq] at h1
      subst h1
      exact hx.has.den
  | kvec f =>
    cases he
    refine earr_v_iff.mpr (LArr.map_iff.mpr (larr_ofFn fun i => ?_))
    rw [extM_of _ i.2 one_pos]
    exact Entry.holds_const _
  | vvec f =>
    cases he
    refine earr_v_iff.mpr (LArr.map_iff.mpr (larr_ofFn fun i => ?_))
    rw [extM_of _ i.2 one_pos]
    have hu := hp _ ⟨i, rfl⟩
    simp only [AProg.entry, i.2, dite_true]
    exact Entry.holds_var (hU _ hu) hu
  | kmat f =>
    cases he
    refine earr_m_iff.mpr (Arr.map_iff.mpr (larr_ofFn fun i => larr_ofFn fun j => ?_))
    show Tagged.Holds U (Entry.tagged _ (extM _ _ _)) _
    rw [extM_of _ i.2 j.2]
    exact Entry.holds_const _
  | vmat f =>
    cases he
    refine earr_m_iff.mpr (Arr.map_iff.mpr (larr_ofFn fun i => larr_ofFn fun j => ?_))
    show Tagged.Holds U (Entry.tagged _ (extM _ _ _)) _
    rw [extM_of _ i.2 j.2]
    have hu := hp _ ⟨i, j, rfl⟩
    simp only [AProg.entry, i.2, j.2, and_self, dite_true]
    exact Entry.holds_var (hU _ hu) hu
  | plus a b iha ihb =>
    obtain ⟨x, h1, he⟩ := Go.bind_eq_ok.mp he
    obtain ⟨y, h2, he⟩ := Go.bind_eq_ok.mp he
    have hx := iha (fun v hv => hp v (.inl hv)) hreg.1 h1
    have hy := ihb (fun v hv => hp v (.inr hv)) hreg.2 h2
    exact holdsE_of (Expr.plus_post addSem_holds a.pos.1 a.pos.2 hx hy) (fun i j => Entry.make_sound _ _)
      (fun i j => ⟨_, Entry.leq_add Entry.leq_refl Entry.leq_refl, by simp [extM_fin, AProg.meaning]⟩) he
  | minus a b iha ihb =>
    obtain ⟨x, h1, he⟩ := Go.bind_eq_ok.mp he
    obtain ⟨y, h2, he⟩ := Go.bind_eq_ok.mp he
    have hx := iha (fun v hv => hp v (.inl hv)) hreg.1 h1
    have hy := ihb (fun v hv => hp v (.inr hv)) hreg.2 h2
    exact holdsE_of (Expr.minus_post mulSem_holds negOne_holds a.pos.1 a.pos.2 hx hy) (fun i j => Entry.make_sound _ _)
      (fun i j => ⟨_, Entry.leq_add Entry.leq_refl (Entry.leq_mul Entry.leq_refl Entry.leq_refl),
        by simp [extM_fin, hneg, AProg.meaning, ← sub_eq_add_neg]⟩) he
  | mul a b iha ihb =>
    obtain ⟨x, h1, he⟩ := Go.bind_eq_ok.mp he
    obtain ⟨y, h2, he⟩ := Go.bind_eq_ok.mp he
    have hx := iha (fun v hv => hp v (.inl hv)) hreg.1 h1
    have hy := ihb (fun v hv => hp v (.inr hv)) hreg.2 h2
    exact holdsE_mul a.pos.1 a.pos.2 b.pos.2 hx hy he
  | plusS a s iha ihs =>
    obtain ⟨x, h1, he⟩ := Go.bind_eq_ok.mp he
    obtain ⟨y, h2, he⟩ := Go.bind_eq_ok.mp he
    obtain ⟨t, h3, he⟩ := Go.bind_eq_ok.mp he
    have hx := iha (fun v hv => hp v (.inl hv)) hreg.1 h1
    have ht := asS (ihs (fun v hv => hp v (.inr hv)) hreg.2 h2) h3
    exact holdsE_of (Expr.plus_scalar_post addSem_holds a.pos.1 a.pos.2 hx ht) (fun i j => Entry.make_sound _ _)
      (fun i j => ⟨_, Entry.leq_add Entry.leq_refl Entry.leq_refl, by simp [extM_fin, AProg.meaning]⟩) he
  | minusS a s iha ihs =>
    obtain ⟨x, h1, he⟩ := Go.bind_eq_ok.mp he
    obtain ⟨y, h2, he⟩ := Go.bind_eq_ok.mp he
    obtain ⟨t, h3, he⟩ := Go.bind_eq_ok.mp he
    have hx := iha (fun v hv => hp v (.inl hv)) hreg.1 h1
    have ht := asS (ihs (fun v hv => hp v (.inr hv)) hreg.2 h2) h3
    exact holdsE_of (Expr.minus_scalar_post mulSem_holds negOne_holds a.pos.1 a.pos.2 hx ht)
      (fun i j => Entry.make_sound _ _)
      (fun i j => ⟨_, Entry.leq_add Entry.leq_refl (Entry.leq_mul Entry.leq_refl Entry.leq_refl),
        by simp [extM_fin, hneg, AProg.meaning, ← sub_eq_add_neg]⟩) he
  | mulS a s iha ihs =>
    obtain ⟨x, h1, he⟩ := Go.bind_eq_ok.mp he
    obtain ⟨y, h2, he⟩ := Go.bind_eq_ok.mp he
    obtain ⟨t, h3, he⟩ := Go.bind_eq_ok.mp he
    have hx := iha (fun v hv => hp v (.inl hv)) hreg.1 h1
    have ht := asS (ihs (fun v hv => hp v (.inr hv)) hreg.2 h2) h3
    exact holdsE_of (Expr.mul_scalar_post mulSem_holds a.pos.1 a.pos.2 hx ht) (fun i j => Entry.make_sound _ _)
      (fun i j => ⟨_, Entry.leq_mul Entry.leq_refl Entry.leq_refl, by simp [extM_fin, AProg.meaning]⟩) he
  | sPlus s a ihs iha =>
    obtain ⟨y, h2, he⟩ := Go.bind_eq_ok.mp he
    obtain ⟨t, h3, he⟩ := Go.bind_eq_ok.mp he
    obtain ⟨x, h1, he⟩ := Go.bind_eq_ok.mp he
    have ht := asS (ihs (fun v hv => hp v (.inl hv)) hreg.1 h2) h3
    have hx := iha (fun v hv => hp v (.inr hv)) hreg.2 h1
    exact holdsE_of (Expr.scalar_plus_post addSem_holds a.pos.1 a.pos.2 ht hx) (fun i j => Entry.make_sound _ _)
      (fun i j => ⟨_, Entry.leq_add Entry.leq_refl Entry.leq_refl, by simp [extM_fin, AProg.meaning]⟩) he
  | sMinus s a ihs iha =>
    obtain ⟨y, h2, he⟩ := Go.bind_eq_ok.mp he
    obtain ⟨t, h3, he⟩ := Go.bind_eq_ok.mp he
    obtain ⟨x, h1, he⟩ := Go.bind_eq_ok.mp he
    have ht := asS (ihs (fun v hv => hp v (.inl hv)) hreg.1 h2) h3
    have hx := iha (fun v hv => hp v (.inr hv)) hreg.2 h1
    exact holdsE_of (Expr.scalar_minus_post mulSem_holds negOne_holds a.pos.1 a.pos.2 ht hx)
      (fun i j => Entry.make_sound _ _)
      (fun i j => ⟨_, Entry.leq_add Entry.leq_refl (Entry.leq_mul Entry.leq_refl Entry.leq_refl),
        by simp [extM_fin, hneg, AProg.meaning, ← sub_eq_add_neg]⟩) he
  | sMul s a ihs iha =>
    obtain ⟨y, h2, he⟩ := Go.bind_eq_ok.mp he
    obtain ⟨t, h3, he⟩ := Go.bind_eq_ok.mp he
    obtain ⟨x, h1, he⟩ := Go.bind_eq_ok.mp he
    have ht := asS (ihs (fun v hv => hp v (.inl hv)) hreg.1 h2) h3
    have hx := iha (fun v hv => hp v (.inr hv)) hreg.2 h1
    exact holdsE_of (Expr.scalar_mul_post mulSem_holds mulSem_holds a.pos.1 a.pos.2 ht hx)
      (fun i j => Entry.make_sound _ _)
      (fun i j => ⟨_, Entry.leq_mul Entry.leq_refl Entry.leq_refl, by simp [extM_fin, AProg.meaning]⟩) he
  | pow a n iha =>
    obtain ⟨x, h1, he⟩ := Go.bind_eq_ok.mp he
    exact holdsE_pow a.pos.1 (iha hp hreg h1) he
  | transpose a iha =>
    obtain ⟨x, h1, he⟩ := Go.bind_eq_ok.mp he
    obtain ⟨e', h2, h3⟩ := Expr.transpose_ok (iha hp hreg h1) a.pos.1 a.pos.2 fun _ _ _ h => h.1.check
    rw [he, Except.ok.injEq] at h2
    subst h2
    refine h3.mono fun i j x hi hj hx => ?_
    rw [extM_of _ hj hi] at hx
    rw [extM_of _ hi hj]
    exact hx
  | simp a iha =>
    obtain ⟨x, h1, he⟩ := Go.bind_eq_ok.mp he
    exact EArr.simpPost a.pos.1 (fun _ _ => stable_holds _) (iha hp hreg h1) _ he
  | «at» a i j iha =>
    obtain ⟨x, h1, he⟩ := Go.bind_eq_ok.mp he
    obtain ⟨t, h2, he⟩ := Go.bind_eq_ok.mp he
    cases he
    obtain ⟨y, h3, h4⟩ := EArr.at (iha hp hreg h1) (fun _ _ _ h => h.1.check) i.2 j.2
    rw [h2, Except.ok.injEq] at h3
    subst h3
    rw [extM_fin] at h4
    exact holdsE_s.mpr h4
  | hstack cs a iha =>
    obtain ⟨l, h1, he⟩ := Go.bind_eq_ok.mp he
    obtain ⟨es, rfl, hes⟩ := mapM_finRange h1
    exact holdsE_hstack (a 0).pos.1 (fun k => (a k).pos.2)
      (fun k => iha k (fun v hv => hp v ⟨k, hv⟩) (hreg k) (hes k)) he
  | vstack rs a iha =>
    obtain ⟨l, h1, he⟩ := Go.bind_eq_ok.mp he
    obtain ⟨es, rfl, hes⟩ := mapM_finRange h1
    exact holdsE_vstack (a 0).pos.2 (fun k => (a k).pos.1)
      (fun k => iha k (fun v hv => hp v ⟨k, hv⟩) (hreg k) (hes k)) he
  | deriv a v iha =>
    obtain ⟨x, h1, he⟩ := Go.bind_eq_ok.mp he
    have ov := hU v (hp v (.inr rfl))
    exact holdsE_deriv a.pos.1 a.pos.2 (iha (fun w hw => hp w (.inl hw)) hreg.1 h1) ov
      (fun l hl => hreg.2 l (hl ▸ h1)) he
  | subst a v s iha ihs =>
    obtain ⟨x, h1, he⟩ := Go.bind_eq_ok.mp he
    obtain ⟨y, h2, he⟩ := Go.bind_eq_ok.mp he
    obtain ⟨t, h3, he⟩ := Go.bind_eq_ok.mp he
    have hx := iha (fun w hw => hp w (.inl hw)) hreg.1 h1
    have ht := asS (ihs (fun w hw => hp w (.inr (.inr hw))) hreg.2 h2) h3
    have hv := hp v (.inr (.inl rfl))
    exact holdsE_subst a.pos.1 hx (fun w hw hi => hc w v hw hv hi) (hU v hv) ht he

/-- The variables of the program pass `Check`, and two of them with the same ID are the same. -/
structure AProg.VarsOK {r c : ℕ} (p : AProg R r c) : Prop where
  ok : ∀ v, p.Names v → v.OK
  same : ∀ v w, p.Names v → p.Names w → v.id = w.id → v = w

variable {r c : ℕ} {p : AProg R r c} {e : Expr R}

/-- C76: whatever the check says, the result of a program all of whose calls return has the size the calls ask for, is well
formed, and names no variable that the program does not name. -/
theorem arrayProgram_wellFormed (hv : p.VarsOK) (hreg : p.Regular) (he : p.run = .ok e) :
    e.Shape r c ∧ e.Canon ∧ ∀ w, e.Mentions w → p.Names w := by
  have h := p.sound hv.ok hv.same (fun _ h => h) hreg he
  refine ⟨EArr.shape h, h.canon, ?_⟩
  rintro w ⟨row, hrow, x, hx, hw⟩
  exact (good_iff.mp (h.good row hrow x hx)).2.2 w hw

/-- C76: an entry for which the check says yes is the polynomial of that place of the matrix the calls stand for, and has
only terms written as the check foresees. -/
theorem arrayProgram_entry (hv : p.VarsOK) (hreg : p.Regular) (he : p.run = .ok e) (i : Fin r) (j : Fin c)
    (hok : (p.entry i j).ok = true) :
    ∃ s, e.at (i : ℕ) (j : ℕ) = .ok s ∧ s.Canon ∧ s.den = p.meaning i j ∧
      ∀ m ∈ s.terms, m.vars ≠ [] → m.writing ∈ (p.entry i j).ws := by
  obtain ⟨s, h1, h2⟩ := EArr.at (p.sound hv.ok hv.same (fun _ h => h) hreg he) (fun _ _ _ h => h.1.check) i.2 j.2
  obtain ⟨-, h3⟩ := h2.2 hok
  exact ⟨s, h1, h3.canon, h3.den.trans (extM_fin _ i j), h3.written⟩

/-- C76: if the check of a program says yes and every call returns, the result is the matrix that the calls stand for. -/
theorem arrayProgram_checked (h : p.checked = true) (hv : p.VarsOK) (hreg : p.Regular) (he : p.run = .ok e) :
    e.Denotes p.meaning := by
  refine denotes_iff.mpr ((p.sound hv.ok hv.same (fun _ h => h) hreg he).mono fun i j s hi hj hs => ?_)
  have hok : (p.entry i j).ok = true := by
    unfold AProg.checked at h
    rw [List.all_eq_true] at h
    have := h i (List.mem_range.mpr hi)
    rw [List.all_eq_true] at this
    exact this j (List.mem_range.mpr hj)
  exact (hs.2 hok).2.den

/-- C76: the values of its entries at every assignment. -/
theorem arrayProgram_checked_value (h : p.checked = true) (hv : p.VarsOK) (hreg : p.Regular) (he : p.run = .ok e)
    (i : Fin r) (j : Fin c) :
    ∃ s, e.at (i : ℕ) (j : ℕ) = .ok s ∧ ∀ ρ, s.value ρ = eval ρ (p.meaning i j) := by
  have hok : (p.entry i j).ok = true := by
    unfold AProg.checked at h
    rw [List.all_eq_true] at h
    have := h i (List.mem_range.mpr i.2)
    rw [List.all_eq_true] at this
    exact this j (List.mem_range.mpr j.2)
  obtain ⟨s, h1, -, h3, -⟩ := arrayProgram_entry hv hreg he i j hok
  exact ⟨s, h1, fun ρ => by unfold Scalar.value; rw [h3]⟩

/-- The replacements made one after the other. -/
def AProg.chain {R : Type} {r c : ℕ} (a : AProg R r c) (l : List (Var R × AProg R 1 1)) : AProg R r c :=
  l.foldl (fun p kv => .subst p kv.1 kv.2) a

omit [Field R] [LinearOrder R] in
/-- `SubstituteAccordingTo` on a vector or a matrix makes the replacements one after the other. -/
theorem Expr.substMap_fold [GoNum R] {e e' : Expr R} {sm : SubMap R} (hns : ∀ x, e ≠ .s x) (he : e.substMap sm = .ok e') :
    sm.foldlM (fun (acc : Expr R) kv => acc.substitute kv.1 kv.2) e = .ok e' := by
  have hv : ∀ (sm : SubMap R) (x y : Vec R), sm.foldlM (fun (acc : Vec R) kv => acc.substitute kv.1 kv.2) x = .ok y →
      sm.foldlM (fun (acc : Expr R) kv => acc.substitute kv.1 kv.2) (.v x) = .ok (.v y) := by
    intro sm
    induction sm with
    | nil => intro x y h; cases h; rfl
    | cons kv sm ih =>
      intro x y h
      rw [List.foldlM_cons] at h ⊢
      obtain ⟨z, h1, h2⟩ := Go.bind_eq_ok.mp h
      simp only [Expr.substitute, h1, Go.ok_bind, Go.pure_eq]
      exact ih z y h2
  have hm : ∀ (sm : SubMap R) (x y : Mat R), sm.foldlM (fun (acc : Mat R) kv => acc.substitute kv.1 kv.2) x = .ok y →
      sm.foldlM (fun (acc : Expr R) kv => acc.substitute kv.1 kv.2) (.m x) = .ok (.m y) := by
    intro sm
    induction sm with
    | nil => intro x y h; cases h; rfl
    | cons kv sm ih =>
      intro x y h
      rw [List.foldlM_cons] at h ⊢
      obtain ⟨z, h1, h2⟩ := Go.bind_eq_ok.mp h
      simp only [Expr.substitute, h1, Go.ok_bind, Go.pure_eq]
      exact ih z y h2
  have hvk : ∀ (sm : SubMap R) (x : List R),
      sm.foldlM (fun (acc : Vec R) kv => acc.substitute kv.1 kv.2) (.k x) = .ok (.k x) := by
    intro sm x
    induction sm with
    | nil => rfl
    | cons kv sm ih => exact ih
  have hmk : ∀ (sm : SubMap R) (x : List (List R)),
      sm.foldlM (fun (acc : Mat R) kv => acc.substitute kv.1 kv.2) (.k x) = .ok (.k x) := by
    intro sm x
    induction sm with
    | nil => rfl
    | cons kv sm ih => exact ih
  cases e with
  | s x => exact absurd rfl (hns x)
  | v x =>
    obtain ⟨y, h1, h2⟩ := Go.bind_eq_ok.mp he
    cases h2
    refine hv sm x y ?_
    cases x with
    | k x => cases h1; exact hvk sm x
    | v x => exact (Go.bind_eq_ok.mp (Go.bind_eq_ok.mp h1).choose_spec.2).choose_spec.2
    | m x => exact (Go.bind_eq_ok.mp (Go.bind_eq_ok.mp h1).choose_spec.2).choose_spec.2
    | p x => exact (Go.bind_eq_ok.mp (Go.bind_eq_ok.mp h1).choose_spec.2).choose_spec.2
  | m x =>
    obtain ⟨y, h1, h2⟩ := Go.bind_eq_ok.mp he
    cases h2
    refine hm sm x y ?_
    cases x with
    | k x => cases h1; exact hmk sm x
    | v x => exact (Go.bind_eq_ok.mp (Go.bind_eq_ok.mp h1).choose_spec.2).choose_spec.2
    | m x => exact (Go.bind_eq_ok.mp (Go.bind_eq_ok.mp h1).choose_spec.2).choose_spec.2
    | p x => exact (Go.bind_eq_ok.mp (Go.bind_eq_ok.mp h1).choose_spec.2).choose_spec.2

omit [Field R] [LinearOrder R] in
/-- C76: `SubstituteAccordingTo` on a vector or a matrix is the program that makes the replacements one after the other, in
the order in which the map is iterated over.  So the theorems above apply to it, for every order. -/
theorem arrayProgram_substMap [GoNum R] {a : AProg R r c} {l : List (Var R × AProg R 1 1)} {sm : SubMap R} {e' : Expr R}
    (ha : a.run = .ok e) (hns : ∀ x, e ≠ .s x)
    (hl : List.Forall₂ (fun kv kw => kv.1 = kw.1 ∧ kv.2.run = .ok (.s kw.2)) l sm) (he : e.substMap sm = .ok e') :
    (a.chain l).run = .ok e' := by
  have hfold := Expr.substMap_fold hns he
  clear he hns
  induction hl generalizing a e with
  | nil =>
    cases hfold
    exact ha
  | @cons kv kw l sm h _ ih =>
    rw [List.foldlM_cons] at hfold
    obtain ⟨z, h1, h2⟩ := Go.bind_eq_ok.mp hfold
    refine ih (a := .subst a kv.1 kv.2) (e := z) ?_ h2
    simp only [AProg.run, ha, h.2, Go.ok_bind, AProg.asScalar, h.1]
    exact h1

end

/-! ## The answer does not depend on the numbers -/

/-- The same calls, with other numbers and variables. -/
def AProg.map {S : Type} (f : R → S) (g : Var R → Var S) : {r c : ℕ} → AProg R r c → AProg S r c
  | _, _, .scalar p => .scalar (p.map f g)
  | _, _, .kvec x => .kvec fun i => f (x i)
  | _, _, .vvec x => .vvec fun i => g (x i)
  | _, _, .kmat x => .kmat fun i j => f (x i j)
  | _, _, .vmat x => .vmat fun i j => g (x i j)
  | _, _, .plus a b => .plus (a.map f g) (b.map f g)
  | _, _, .minus a b => .minus (a.map f g) (b.map f g)
  | _, _, .mul a b => .mul (a.map f g) (b.map f g)
  | _, _, .plusS a s => .plusS (a.map f g) (s.map f g)
  | _, _, .minusS a s => .minusS (a.map f g) (s.map f g)
  | _, _, .mulS a s => .mulS (a.map f g) (s.map f g)
  | _, _, .sPlus s a => .sPlus (s.map f g) (a.map f g)
  | _, _, .sMinus s a => .sMinus (s.map f g) (a.map f g)
  | _, _, .sMul s a => .sMul (s.map f g) (a.map f g)
  | _, _, .pow a n => .pow (a.map f g) n
  | _, _, .transpose a => .transpose (a.map f g)
  | _, _, .simp a => .simp (a.map f g)
  | _, _, .at a i j => .at (a.map f g) i j
  | _, _, .hstack cs a => .hstack cs fun k => (a k).map f g
  | _, _, .vstack rs a => .vstack rs fun k => (a k).map f g
  | _, _, .deriv a v => .deriv (a.map f g) (g v)
  | _, _, .subst a v s => .subst (a.map f g) (g v) (s.map f g)

/-- C76: the answer of the check does not depend on the numbers: it is the same, entry by entry, for a program with its
numbers (in any field) replaced. -/
theorem arrayChecked_coeffs {S : Type} {r c : ℕ} (p : AProg R r c) (f : R → S) (g : Var R → Var S)
    (hg : ∀ v, (g v).id = v.id) : (p.map f g).entry = p.entry ∧ (p.map f g).checked = p.checked := by
  have key : (p.map f g).entry = p.entry := by
    induction p with
    | scalar p => simp only [AProg.map, AProg.entry, (checked_coeffs f g hg).1, (checked_coeffs f g hg).2]
    | kvec x => rfl
    | kmat x => rfl
    | vvec x => simp only [AProg.map, AProg.entry, hg]
    | vmat x => simp only [AProg.map, AProg.entry, hg]
    | plus a b iha ihb => simp only [AProg.map, AProg.entry, iha, ihb]
    | minus a b iha ihb => simp only [AProg.map, AProg.entry, iha, ihb]
    | mul a b iha ihb => simp only [AProg.map, AProg.entry, iha, ihb]
    | plusS a s iha ihs => simp only [AProg.map, AProg.entry, iha, ihs]
    | minusS a s iha ihs => simp only [AProg.map, AProg.entry, iha, ihs]
    | mulS a s iha ihs => simp only [AProg.map, AProg.entry, iha, ihs]
    | sPlus s a ihs iha => simp only [AProg.map, AProg.entry, iha, ihs]
    | sMinus s a ihs iha => simp only [AProg.map, AProg.entry, iha, ihs]
    | sMul s a ihs iha => simp only [AProg.map, AProg.entry, iha, ihs]
    | pow a n iha => simp only [AProg.map, AProg.entry, iha]
    | transpose a iha => simp only [AProg.map, AProg.entry, iha]
    | simp a iha => simp only [AProg.map, AProg.entry, iha]
    | «at» a i j iha => simp only [AProg.map, AProg.entry, iha]
    | hstack cs a iha => simp only [AProg.map, AProg.entry, iha]
    | vstack rs a iha => simp only [AProg.map, AProg.entry, iha]
    | deriv a v iha => simp only [AProg.map, AProg.entry, iha, hg]
    | subst a v s iha ihs => simp only [AProg.map, AProg.entry, iha, ihs, hg]
  exact ⟨key, by unfold AProg.checked; rw [key]⟩

/-! ## Examples -/

private def wxy : AProg ℚ 2 1 := .vvec ![wx, wy]

private def wSqr : AProg ℚ 2 2 := .kmat !![1, 2; 3, 4]

/-- `(x y) v` for the column `v` of `x` and `y`: the two entries have terms that would be confused if they met. -/
private def wScaled : AProg ℚ 2 1 := .mulS wxy (.scalar (.mul (.var wx) (.var wy)))

/-- The cube of the matrix with rows `(x, 1)` and `(0, y)`. -/
private def wTriangular : AProg ℚ 2 2 :=
  .pow (.vstack (m := 1) (fun _ => 1) fun i => .hstack (m := 1) (fun _ => 1) fun j =>
    .scalar (!![.var wx, .k 1; .k 0, .var wy] i j)) 3

private theorem wScaled_varsOK : wScaled.VarsOK where
  ok := by
    rintro v (⟨i, rfl⟩ | rfl | rfl)
    · fin_cases i <;> exact wv_ok _
    · exact wv_ok _
    · exact wv_ok _
  same := by
    have h : ∀ v, wScaled.Names v → v = wx ∨ v = wy := by
      rintro v (⟨i, rfl⟩ | rfl | rfl)
      · fin_cases i <;> simp
      · exact .inl rfl
      · exact .inr rfl
    intro v w hv hw hi
    rcases h v hv with rfl | rfl <;> rcases h w hw with rfl | rfl <;> first | rfl | (revert hi; decide +kernel)

/-- The column `(x^2 y, x y^2)` passes the check, and it runs. -/
example : wScaled.checked = true ∧ ∃ e, wScaled.run = .ok e ∧ e.Denotes wScaled.meaning := by
  have h : wScaled.checked = true := by decide +kernel
  have hr : (wScaled.run.toOption).isSome = true := by decide +kernel
  cases he : wScaled.run with
  | error x => rw [he] at hr; cases hr
  | ok e => exact ⟨h, e, rfl, arrayProgram_checked h wScaled_varsOK (by simp [wScaled, wxy, AProg.Regular, Prog.Keys]) he⟩

/-- The cube passes the check. -/
example : wTriangular.checked = true ∧ (wTriangular.run.toOption).isSome = true := by decide +kernel

/-- The sum of the columns `(x^2 y, 1)` and `(x y^2, 1)` of `arrayProgram_false` fails it, in the first entry only. -/
example : (AProg.plus (.vstack (m := 1) (fun _ => 1) ![.scalar (.mul (.pow (.var wx) 2) (.var wy)), .scalar (.k 1)])
      (.vstack (m := 1) (fun _ => 1) ![.scalar (.mul (.pow (.var wy) 2) (.var wx)), .scalar (.k (1 : ℚ))])).checked = false ∧
    ((AProg.plus (.vstack (m := 1) (fun _ => 1) ![.scalar (.mul (.pow (.var wx) 2) (.var wy)), .scalar (.k 1)])
      (.vstack (m := 1) (fun _ => 1) ![.scalar (.mul (.pow (.var wy) 2) (.var wx)), .scalar (.k (1 : ℚ))])).entry 1 0).ok
        = true := by
  decide +kernel

/-- `x` replaced by `y` and `y` by `x y` in the column of `x` and `y`, with a map iterated over in this order. -/
example : (wxy.chain [(wx, .scalar (.var wy)), (wy, .scalar (.mul (.var wx) (.var wy)))]).checked = true ∧
    ∃ e', (Expr.v (.v (List.ofFn ![wx, wy]))).substMap [(wx, .var wy), (wy, .mono (wm2 (1 : ℚ) 0 1 1 1))] = .ok e' ∧
      (wxy.chain [(wx, .scalar (.var wy)), (wy, .scalar (.mul (.var wx) (.var wy)))]).run = .ok e' := by
  refine ⟨by decide +kernel, ?_⟩
  have hr : ((Expr.v (.v (List.ofFn ![wx, wy]))).substMap
      [(wx, .var wy), (wy, .mono (wm2 (1 : ℚ) 0 1 1 1))]).toOption.isSome = true := by decide +kernel
  cases he : (Expr.v (.v (List.ofFn ![wx, wy]))).substMap [(wx, .var wy), (wy, .mono (wm2 (1 : ℚ) 0 1 1 1))] with
  | error x => rw [he] at hr; cases hr
  | ok e' =>
    refine ⟨e', rfl, arrayProgram_substMap rfl (fun x h => by cases h) (.cons ⟨rfl, rfl⟩ (.cons ⟨rfl, ?_⟩ .nil)) he⟩
    show (do return Expr.s (← ((Scalar.var wx).mul (.var wy) : Go (Scalar ℚ))) : Go (Expr ℚ)) = _
    have : ((Scalar.var wx).mul (.var wy) : Go (Scalar ℚ)) = .ok (.mono (wm2 1 0 1 1 1)) := by decide +kernel
    rw [this]
    rfl

/-- The matrix that stacking columns stands for. -/
example (a b : AProg ℚ 2 1) :
    (AProg.hstack (m := 1) (fun _ => 1) ![a, b]).meaning =
      !![a.meaning 0 0, b.meaning 0 0; a.meaning 1 0, b.meaning 1 0] := by
  ext i j : 2
  fin_cases i <;> fin_cases j <;> rfl

end Verif
