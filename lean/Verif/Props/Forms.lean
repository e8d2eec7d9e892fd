import Verif.Lemmas.FormsExact
import Verif.Props.ArithNeg
import Mathlib.Data.List.Sort

/-!
# C74: sums collect terms by their written form

`Simplify` (`symbolic/polynomial.go:378-424`) merges two terms when they have the same set of variables and the same
list of exponents (`MatchesFormOf`, `symbolic/monomial.go:373-404`).  This file says exactly what that means for every
sum, difference and multiple, with no condition on the terms, and when the result is the true sum.
-/

set_option linter.unusedSectionVars false

namespace Verif

open MvPolynomial

variable {R : Type} [Field R] [LinearOrder R]

/-- The total coefficient of every written form. -/
noncomputable def Scalar.forms (s : Scalar R) : (Finset ℕ × List Int) →₀ R :=
  (s.terms.map fun m => Finsupp.single m.writing.form m.coeff).sum

/-- Every term with variables is written like some term of `a`. -/
def Scalar.WrittenLike (r a : Scalar R) : Prop :=
  ∀ m ∈ r.terms, m.vars ≠ [] → ∃ m' ∈ a.terms, m.writing = m'.writing

/-! ## Sums by form -/

private noncomputable def formW (w : Writing) : (Finset ℕ × List Int) →₀ R := Finsupp.single w.form 1

private theorem respects_form (W : Set Writing) : Respects W (formW (R := R)) := fun w _ w' _ h => by
  unfold formW
  rw [h]

private theorem lin_form (s : Scalar R) : s.lin formW = s.forms := by
  unfold Scalar.lin llin Scalar.forms formW
  congr 1
  refine List.map_congr_left fun m _ => ?_
  rw [Finsupp.smul_single, smul_eq_mul, mul_one]

/-- How the terms of two expressions are written. -/
private def writings (l : List (Mono R)) : Set Writing := {w | ∃ m ∈ l, w = m.writing}

private theorem sem_form {W : Set Writing} {s : Scalar R} (h : s.Canon) (hW : ∀ m ∈ s.terms, m.writing ∈ W) :
    SemW W formW s.forms s := ⟨h, fun m hm _ => hW m hm, lin_form s⟩

private theorem spec {l : List (Mono R)} {f : (Finset ℕ × List Int) →₀ R} {x : Go (Scalar R)}
    (h : Go.Ok x (SemW (writings l) formW f)) :
    ∃ r, x = .ok r ∧ r.Canon ∧ r.forms = f ∧ ∀ m ∈ r.terms, m.vars ≠ [] → ∃ m' ∈ l, m.writing = m'.writing := by
  obtain ⟨r, h1, h2⟩ := h
  exact ⟨r, h1, h2.canon, (lin_form r).symm.trans h2.lin, h2.written⟩

/-- C74: `Plus` adds the coefficients of every written form, and every term is written like a term of an operand. -/
theorem plus_forms {a b : Scalar R} (ha : a.Canon) (hb : b.Canon) :
    ∃ r, a.plus b = .ok r ∧ r.Canon ∧ r.forms = a.forms + b.forms ∧
      ∀ m ∈ r.terms, m.vars ≠ [] → ∃ m' ∈ a.terms ++ b.terms, m.writing = m'.writing :=
  spec (Scalar.plus_sem (respects_form _) (sem_form ha fun m hm => ⟨m, List.mem_append_left _ hm, rfl⟩)
    (sem_form hb fun m hm => ⟨m, List.mem_append_right _ hm, rfl⟩))

/-- C74: `Minus` subtracts the coefficients of every written form. -/
theorem minus_forms {a b : Scalar R} (ha : a.Canon) (hb : b.Canon) :
    ∃ r, a.minus b = .ok r ∧ r.Canon ∧ r.forms = a.forms - b.forms ∧
      ∀ m ∈ r.terms, m.vars ≠ [] → ∃ m' ∈ a.terms ++ b.terms, m.writing = m'.writing :=
  spec (Scalar.minus_sem (respects_form _) (sem_form ha fun m hm => ⟨m, List.mem_append_left _ hm, rfl⟩)
    (sem_form hb fun m hm => ⟨m, List.mem_append_right _ hm, rfl⟩))

/-- C74: `AsSimplifiedExpression` keeps the coefficient of every written form. -/
theorem asSimplified_forms {a : Scalar R} (ha : a.Canon) :
    ∃ r, a.asSimplified = .ok r ∧ r.Canon ∧ r.forms = a.forms ∧ r.WrittenLike a :=
  spec (Scalar.asSimplified_sem (respects_form _) (sem_form ha fun m hm => ⟨m, hm, rfl⟩))

/-- C74: a constant times an expression, on either side. -/
theorem mul_const_forms {a : Scalar R} (ha : a.Canon) (c : R) :
    (∃ r, a.mul (.k c) = .ok r ∧ r.Canon ∧ r.forms = c • a.forms ∧ r.WrittenLike a) ∧
      ∃ r, Scalar.mul (.k c) a = .ok r ∧ r.Canon ∧ r.forms = c • a.forms ∧ r.WrittenLike a :=
  have h := Scalar.mul_k_sem (respects_form _) (sem_form ha fun m hm => (⟨m, hm, rfl⟩ : m.writing ∈ writings _)) c
  ⟨spec h.1, spec h.2⟩

/-- The total coefficient of every written form in the products of the terms of `l` by those of `l'`. -/
noncomputable def productForms (l l' : List (Mono R)) : (Finset ℕ × List Int) →₀ R :=
  (l.map fun m => (l'.map fun m' => Finsupp.single (m.writing.mul m'.writing).form (m.coeff * m'.coeff)).sum).sum

/-- C74: `Multiply` multiplies every term of one operand by every term of the other and collects the products by their
written form.  The terms of the first operand come first, except for a variable times a monomial or a polynomial and for a
monomial times a polynomial. -/
theorem mul_forms {a b : Scalar R} (ha : a.Canon) (hb : b.Canon) :
    ∃ r, a.mul b = .ok r ∧ r.Canon ∧ (a.Swaps b → r.forms = productForms b.terms a.terms) ∧
      (¬ a.Swaps b → r.forms = productForms a.terms b.terms) := by
  have e : ∀ l l' : List (Mono R), pairs formW l l' = productForms l l' := by
    intro l l'
    unfold pairs productForms formW
    simp only [Finsupp.smul_single, smul_eq_mul, mul_one]
  obtain ⟨r, h1, h2, h3⟩ := Scalar.mul_pairs (respects_form (R := R) Set.univ) ha hb
  refine ⟨r, h1, ?_, fun h => ?_, fun h => ?_⟩
  · by_cases h : a.Swaps b
    · exact (h2 h).canon
    · exact (h3 h).canon
  · rw [← lin_form, ← e]
    exact (h2 h).lin
  · rw [← lin_form, ← e]
    exact (h3 h).lin

/-- C74: the order of the operands does not change the forms, though it may change what the result denotes
(`plus_comm_false`). -/
theorem plus_comm_forms {a b : Scalar R} (ha : a.Canon) (hb : b.Canon) :
    ∃ r s, a.plus b = .ok r ∧ b.plus a = .ok s ∧ r.forms = s.forms := by
  obtain ⟨r, h1, -, h2, -⟩ := plus_forms ha hb
  obtain ⟨s, h3, -, h4, -⟩ := plus_forms hb ha
  exact ⟨r, s, h1, h3, by rw [h2, h4, add_comm]⟩

/-- C74: the same for the grouping of three operands. -/
theorem plus_assoc_forms {a b c : Scalar R} (ha : a.Canon) (hb : b.Canon) (hc : c.Canon) :
    ∃ x r y s, a.plus b = .ok x ∧ x.plus c = .ok r ∧ b.plus c = .ok y ∧ a.plus y = .ok s ∧ r.forms = s.forms := by
  obtain ⟨x, h1, cx, h2, -⟩ := plus_forms ha hb
  obtain ⟨r, h3, -, h4, -⟩ := plus_forms cx hc
  obtain ⟨y, h5, cy, h6, -⟩ := plus_forms hb hc
  obtain ⟨s, h7, -, h8, -⟩ := plus_forms ha cy
  exact ⟨x, r, y, s, h1, h3, h5, h7, by rw [h4, h2, h8, h6, add_assoc]⟩

/-- C74: adding `b` and then subtracting it gives back the forms of `a`. -/
theorem plus_minus_forms {a b : Scalar R} (ha : a.Canon) (hb : b.Canon) :
    ∃ x r, a.plus b = .ok x ∧ x.minus b = .ok r ∧ r.forms = a.forms := by
  obtain ⟨x, h1, cx, h2, -⟩ := plus_forms ha hb
  obtain ⟨r, h3, -, h4, -⟩ := minus_forms cx hb
  exact ⟨x, r, h1, h3, by rw [h4, h2, add_sub_cancel_right]⟩

/-! ## Consistently written expressions -/

private theorem spec' {W : Set Writing} {f : MvPolynomial ℕ R} {x : Go (Scalar R)} (h : Go.Ok x (DenW W f)) :
    ∃ r, x = .ok r ∧ r.Canon ∧ r.WrittenIn W ∧ r.den = f := by
  obtain ⟨r, h1, h2⟩ := h
  exact ⟨r, h1, h2.canon, h2.written, h2.den⟩

variable {W W1 W2 W3 : Set Writing}

/-- C74: when no two different terms have the same written form, sums are exact. -/
theorem plus_written {a b : Scalar R} (hW : Consistent W) (ha : a.Canon) (hb : b.Canon) (wa : a.WrittenIn W)
    (wb : b.WrittenIn W) : ∃ r, a.plus b = .ok r ∧ r.Canon ∧ r.WrittenIn W ∧ r.den = a.den + b.den :=
  spec' (Scalar.plus_sem (respects_den hW) (denW_of ha wa) (denW_of hb wb))

theorem minus_written {a b : Scalar R} (hW : Consistent W) (ha : a.Canon) (hb : b.Canon) (wa : a.WrittenIn W)
    (wb : b.WrittenIn W) : ∃ r, a.minus b = .ok r ∧ r.Canon ∧ r.WrittenIn W ∧ r.den = a.den - b.den :=
  spec' (Scalar.minus_sem (respects_den hW) (denW_of ha wa) (denW_of hb wb))

theorem asSimplified_written {a : Scalar R} (hW : Consistent W) (ha : a.Canon) (wa : a.WrittenIn W) :
    ∃ r, a.asSimplified = .ok r ∧ r.Canon ∧ r.WrittenIn W ∧ r.den = a.den :=
  spec' (Scalar.asSimplified_sem (respects_den hW) (denW_of ha wa))

/-- C74: products are exact when the products of terms are consistently written. -/
theorem mul_written {a b : Scalar R} (hp : ProdW W1 W2 W3) (hW : Consistent W3) (ha : a.Canon) (hb : b.Canon)
    (wa : a.WrittenIn W1) (wb : b.WrittenIn W2) :
    ∃ r, a.mul b = .ok r ∧ r.Canon ∧ r.WrittenIn W3 ∧ r.den = a.den * b.den :=
  spec' (Scalar.mul_den' hp hW (denW_of ha wa) (denW_of hb wb))

theorem powLoop_written {base : Scalar R} (hb : base.Canon) (wb : base.WrittenIn W) (Ws : ℕ → Set Writing)
    (hp : ∀ k, ProdW (Ws k) W (Ws (k + 1))) (n k : ℕ) (hW : ∀ j ≤ n + k, Consistent (Ws j)) {acc : Scalar R}
    {f : MvPolynomial ℕ R} (ha : DenW (Ws k) f acc) :
    Go.Ok (powLoop base n acc) (DenW (Ws (n + k)) (f * base.den ^ n)) := by
  induction n generalizing k acc f with
  | zero =>
    rw [Nat.zero_add, pow_zero, mul_one]
    exact Go.ok_pure ha
  | succ n ih =>
    unfold powLoop
    rw [show n + 1 + k = n + (k + 1) by omega] at hW ⊢
    refine (Scalar.mul_den' (hp k) (hW _ (by omega)) ha (denW_of hb wb)).bind fun s hs => ?_
    have := ih (k + 1) hW hs
    rwa [mul_assoc, ← pow_succ'] at this

/-- C74: powers, when every partial product is consistently written. -/
theorem power_written {a : Scalar R} (ha : a.Canon) (wa : a.WrittenIn W) (Ws : ℕ → Set Writing)
    (hp : ∀ k, ProdW (Ws k) W (Ws (k + 1))) (n : ℕ) (hW : ∀ j ≤ n, Consistent (Ws j)) :
    ∃ r, a.power n = .ok r ∧ r.Canon ∧ r.WrittenIn (Ws n) ∧ r.den = a.den ^ n := by
  have h := powLoop_written ha wa Ws hp n 0 hW (denW_k 1)
  rw [C_1, one_mul] at h
  have e : a.power n = powLoop a n (.k GoNum.one) := by
    unfold Scalar.power
    rw [(good_of_univ ha).check, Go.ok_bind, if_neg (by omega)]
    rfl
  rw [e]
  exact spec' h

/-! ## The condition is exact -/

/-- What the writing of a well-formed term looks like. -/
structure Writing.Proper (w : Writing) : Prop where
  len : w.2.length = w.1.length
  nodup : w.1.Nodup
  pos : ∀ e ∈ w.2, 0 < e

section Tight
variable [IsStrictOrderedRing R]

private def mk (R : Type) [Field R] (w : Writing) : Mono R := ⟨1, w.2, w.1.map fun i => ⟨i, 0, 1, 0, "x", 0⟩⟩

private theorem mk_writing (w : Writing) : (mk R w).writing = w := by
  unfold mk Mono.writing
  simp [Function.comp_def]

private theorem mk_canon {w : Writing} (h : w.Proper) : (mk R w).Canon := by
  refine ⟨by simp [mk, h.len], h.pos, ?_, ?_⟩
  · show ((w.1.map _).map _).Nodup
    simpa [Function.comp_def] using h.nodup
  · intro v hv
    obtain ⟨i, -, rfl⟩ := List.mem_map.mp hv
    show decide ((1 : R) ≤ 0) = false
    simp

/-- C74: addition of expressions written as in `W` is always exact **if and only if** no two different terms of `W`
have the same written form. -/
theorem plus_exact_iff_consistent (hW : ∀ w ∈ W, w.Proper) :
    (∀ a b : Scalar R, a.Canon → b.Canon → a.WrittenIn W → b.WrittenIn W →
      ∃ r, a.plus b = .ok r ∧ r.den = a.den + b.den) ↔ Consistent W := by
  constructor
  · intro h w hw w' hw' e
    by_contra hne
    have c1 : (mk R w).Canon := mk_canon (hW w hw)
    have c2 : (mk R w').Canon := mk_canon (hW w' hw')
    have d1 : (mk R w).degs = w.degs := by rw [← Mono.writing_degs, mk_writing]
    have d2 : (mk R w').degs = w'.degs := by rw [← Mono.writing_degs, mk_writing]
    have one : ∀ v ∈ W, (Scalar.mono (mk R v)).WrittenIn W := by
      intro v hv m hm _
      rw [List.mem_singleton.mp hm, mk_writing]
      exact hv
    obtain ⟨r, h1, h2⟩ := h (.mono (mk R w)) (.mono (mk R w')) c1 c2 (one w hw) (one w' hw')
    -- both have the same form, so the code merges them
    have hm : (mk R w).matchesFormOf (mk R w') = .ok true := by
      rw [Mono.matches_ok c1.len c2.len]
      simp only [Except.ok.injEq, decide_eq_true_eq]
      have e1 : w.1.toFinset = w'.1.toFinset := (Prod.ext_iff.mp e).1
      have e2 : w.2 = w'.2 := (Prod.ext_iff.mp e).2
      refine ⟨?_, e2, ?_⟩
      · rw [← c1.len, ← c2.len]
        exact congrArg List.length e2
      · intro v hv
        have h3 : v.id ∈ (mk R w).writing.1 := List.mem_map_of_mem hv
        have h4 : v.id ∈ (mk R w').writing.1 := by
          rw [mk_writing] at h3 ⊢
          rw [← List.mem_toFinset, ← e1, List.mem_toFinset]
          exact h3
        exact h4
    have h3 : (Scalar.mono (mk R w)).plus (.mono (mk R w')) =
        Mono.asSimplified { mk R w with coeff := GoNum.add (mk R w).coeff (mk R w').coeff } := by
      show Mono.plus (mk R w) _ = _
      unfold Mono.plus
      rw [c1.check, show (Scalar.mono (mk R w')).check = (mk R w').check from rfl, c2.check, Go.ok_bind,
        Go.ok_bind]
      simp only [hm, Go.ok_bind, if_true, Go.pure_eq]
      rfl
    have hc : Good (fun _ => True) Set.univ
        (Scalar.mono { mk R w with coeff := GoNum.add (mk R w).coeff (mk R w').coeff }) :=
      good_of_univ ⟨c1.len, c1.pos, c1.nodup, c1.ok⟩
    obtain ⟨r', h4, -, h5⟩ := Mono.asSimplified_den (P := fun _ => True) (D := Set.univ) hc
    rw [h3, h4, Except.ok.injEq] at h1
    subst h1
    rw [h5] at h2
    have h6 := congrArg (coeff w'.degs) h2
    rw [Mono.den_degs (show Mono.degs { mk R w with coeff := GoNum.add (mk R w).coeff (mk R w').coeff } = w.degs
      from d1), Scalar.den_mono, Scalar.den_mono, Mono.den_degs d1, Mono.den_degs d2, coeff_add, coeff_monomial,
      coeff_monomial, coeff_monomial, if_neg hne, if_neg hne, if_pos rfl, zero_add] at h6
    exact zero_ne_one h6
  · intro hC a b ha hb wa wb
    obtain ⟨r, h1, -, -, h2⟩ := plus_written hC ha hb wa wb
    exact ⟨r, h1, h2⟩

end Tight

/-! ## Families -/

/-- Variables in ascending order, or all exponents equal. -/
def tame : Set Writing := {w | w.2.length = w.1.length ∧ w.1.Nodup ∧ (w.1.Pairwise (· < ·) ∨ ∃ e, ∀ x ∈ w.2, x = e)}

private theorem degs_equal {ids : List ℕ} {es : List Int} {e : Int} (hl : es.length = ids.length)
    (h : ∀ x ∈ es, x = e) : Writing.degs (ids, es) = (ids.map fun i => Finsupp.single i e.toNat).sum := by
  have : es = List.replicate ids.length e := by
    rw [← hl]
    exact List.eq_replicate_of_mem h
  unfold Writing.degs
  rw [this]
  clear this h hl
  induction ids with
  | nil => rfl
  | cons i ids ih =>
    simp only [List.length_cons, List.replicate_succ, List.zip_cons_cons, List.map_cons, List.sum_cons]
    rw [← ih]

/-- C74: expressions whose terms list their variables in ascending order (or have equal exponents) are consistently
written, whatever their degree. -/
theorem consistent_tame : Consistent tame := by
  rintro ⟨i, e⟩ ⟨hl, hn, h⟩ ⟨i', e'⟩ ⟨hl', hn', h'⟩ hf
  have h1 : i.toFinset = i'.toFinset := congrArg Prod.fst hf
  obtain rfl : e = e' := congrArg Prod.snd hf
  have hp : i.Perm i' := List.perm_of_nodup_nodup_toFinset_eq hn hn' h1
  have eqc : (∃ c, ∀ x ∈ e, x = c) → Writing.degs (i, e) = Writing.degs (i', e) := by
    rintro ⟨c, hc⟩
    rw [degs_equal hl hc, degs_equal hl' hc]
    exact (hp.map _).sum_eq
  rcases h with h | h
  · rcases h' with h' | h'
    · have : i = i' := hp.eq_of_pairwise (le := (· < ·)) (fun a b _ _ h1 h2 => absurd h1 h2.asymm) h h'
      rw [this]
    · exact eqc h'
  · exact eqc h

theorem Consistent.mono (h : Consistent W1) (hs : W ⊆ W1) : Consistent W :=
  fun w hw w' hw' => h w (hs hw) w' (hs hw')

/-- A condition a caller can see: in every term the variables are in ascending order, or the exponents are equal. -/
def Scalar.Tidy (s : Scalar R) : Prop :=
  ∀ m ∈ s.terms, (m.vars.map (·.id)).Pairwise (· < ·) ∨ ∃ e, ∀ x ∈ m.exps, x = e

theorem Scalar.Tidy.written {s : Scalar R} (h : s.Tidy) (hc : s.Canon) : s.WrittenIn tame := by
  intro m hm _
  have c := Scalar.terms_canon hc m hm
  exact ⟨c.lenW, c.nodup, h m hm⟩

theorem Scalar.WrittenIn.tidy {s : Scalar R} (h : s.WrittenIn tame) : s.Tidy := by
  intro m hm
  by_cases hv : m.vars = []
  · left
    rw [hv]
    exact List.Pairwise.nil
  · exact (h m hm hv).2.2

/-- C74: tidy expressions of any degree add, subtract and simplify exactly, and the results are tidy. -/
theorem tidy_exact {a b : Scalar R} (ha : a.Canon) (hb : b.Canon) (ta : a.Tidy) (tb : b.Tidy) :
    (∃ r, a.plus b = .ok r ∧ r.Canon ∧ r.Tidy ∧ r.den = a.den + b.den) ∧
      (∃ r, a.minus b = .ok r ∧ r.Canon ∧ r.Tidy ∧ r.den = a.den - b.den) ∧
      ∃ r, a.asSimplified = .ok r ∧ r.Canon ∧ r.Tidy ∧ r.den = a.den := by
  obtain ⟨r, h1, h2, h3, h4⟩ := plus_written consistent_tame ha hb (ta.written ha) (tb.written hb)
  obtain ⟨s, i1, i2, i3, i4⟩ := minus_written consistent_tame ha hb (ta.written ha) (tb.written hb)
  obtain ⟨t, j1, j2, j3, j4⟩ := asSimplified_written consistent_tame ha (ta.written ha)
  exact ⟨⟨r, h1, h2, h3.tidy, h4⟩, ⟨s, i1, i2, i3.tidy, i4⟩, t, j1, j2, j3.tidy, j4⟩

/-! ## Arrays -/

/-- Every entry is written as in `W`. -/
def Expr.WrittenIn (W : Set Writing) (e : Expr R) : Prop := e.All (Scalar.WrittenIn W)

section
variable {r c n : ℕ} {a b e : Expr R} {M N : Matrix (Fin r) (Fin c) (MvPolynomial ℕ R)}

private theorem arr_of (hc : a.Canon) (hw : a.WrittenIn W) (h : a.Denotes M) :
    EArr r c (fun i j => DenW W (extM M i j)) a :=
  (((denotes_iff.mp h).and_all hc).and_all hw).mono fun _ _ _ _ _ h => by
    have := denW_of (W := W) h.1.2 h.2
    rwa [h.1.1] at this

private theorem arr_val {x : Go (Expr R)} {f : ℕ → ℕ → MvPolynomial ℕ R}
    (h : Go.Post x (EArr r c fun i j => DenW W (f i j))) (hf : ∀ (i : Fin r) (j : Fin c), f i j = M i j)
    (he : x = .ok e) : e.Canon ∧ e.WrittenIn W ∧ e.Denotes M := by
  have h := h e he
  refine ⟨h.all fun _ _ _ ha => ha.canon, h.all fun _ _ _ ha => ha.written,
    denotes_iff.mpr (h.mono fun i j a hi hj ha => ?_)⟩
  rw [extM_of M hi hj, ← hf ⟨i, hi⟩ ⟨j, hj⟩]
  exact ha.den

/-- C74 for arrays: whatever `Plus` returns on consistently written arrays is the sum. -/
theorem plus_arr_written (hW : Consistent W) (hr : 0 < r) (hc : 0 < c)
    (ha : a.Canon) (wa : a.WrittenIn W) (da : a.Denotes M) (hb : b.Canon) (wb : b.WrittenIn W) (db : b.Denotes N)
    (he : a.plus b = .ok e) : e.Canon ∧ e.WrittenIn W ∧ e.Denotes (M + N) :=
  arr_val (Expr.plus_post (addSem_written (respects_den hW)) hr hc (arr_of ha wa da) (arr_of hb wb db))
    (fun i j => by simp [extM_fin]) he

private theorem negOne_den : DenW ∅ (-1 : MvPolynomial ℕ R) (.k negOne) := by
  have := denW_k (W := ∅) (-1 : R)
  rwa [map_neg, C_1] at this

theorem minus_arr_written (hp : ∀ w ∈ W, w.2.length = w.1.length ∧ w.1.Nodup) (hW : Consistent W) (hr : 0 < r)
    (hc : 0 < c) (ha : a.Canon) (wa : a.WrittenIn W) (da : a.Denotes M) (hb : b.Canon) (wb : b.WrittenIn W)
    (db : b.Denotes N) (he : a.minus b = .ok e) : e.Canon ∧ e.WrittenIn W ∧ e.Denotes (M - N) :=
  arr_val (Expr.minus_post (mulSem_written (prodW_const hp) hW) negOne_den hr hc (arr_of ha wa da)
    (arr_of hb wb db)) (fun i j => by simp [extM_fin, sub_eq_add_neg]) he

theorem mul_arr_written (hp : ProdW W1 W2 W3) (hW : Consistent W3) (hr : 0 < r) (hn : 0 < n) (hc : 0 < c)
    {M : Matrix (Fin r) (Fin n) (MvPolynomial ℕ R)} {N : Matrix (Fin n) (Fin c) (MvPolynomial ℕ R)}
    (ha : a.Canon) (wa : a.WrittenIn W1) (da : a.Denotes M) (hb : b.Canon) (wb : b.WrittenIn W2) (db : b.Denotes N)
    (he : a.mul b = .ok e) : e.Canon ∧ e.WrittenIn W3 ∧ e.Denotes (M * N) := by
  refine arr_val (Expr.mul_post (mulSem_written hp hW) (mulSem_written hp.symm hW) hr hn hc (arr_of ha wa da)
    (arr_of hb wb db)) (fun i j => ?_) he
  rw [psumG_sum, Matrix.mul_apply, Finset.sum_range]
  exact Finset.sum_congr rfl fun k _ => by rw [extM_fin, extM_fin]

/-- C74: a matrix of numbers times a tidy array is exact at any degree; so is the product in the other order. -/
theorem const_mul_arr_tidy (hr : 0 < r) (hn : 0 < n) (hc : 0 < c)
    {M : Matrix (Fin r) (Fin n) (MvPolynomial ℕ R)} {N : Matrix (Fin n) (Fin c) (MvPolynomial ℕ R)}
    (ha : a.Canon) (da : a.Denotes M) (hb : b.Canon) (db : b.Denotes N)
    (h : a.WrittenIn tame ∧ b.WrittenIn ∅ ∨ a.WrittenIn ∅ ∧ b.WrittenIn tame) (he : a.mul b = .ok e) :
    e.Canon ∧ e.WrittenIn tame ∧ e.Denotes (M * N) := by
  have hp : ProdW tame ∅ tame := prodW_const fun w hw => ⟨hw.1, hw.2.1⟩
  rcases h with ⟨h1, h2⟩ | ⟨h1, h2⟩
  · exact mul_arr_written hp consistent_tame hr hn hc ha h1 da hb h2 db he
  · exact mul_arr_written hp.symm consistent_tame hr hn hc ha h1 da hb h2 db he

end

/-! ## Examples -/

/-- `x^2*y` -/
private def wx2y : Scalar ℚ := .mono (wm2 1 0 1 2 1)
/-- `x*y^2` -/
private def wxy2 : Scalar ℚ := .mono (wm2 1 0 1 1 2)

private theorem wx2y_canon : wx2y.Canon := wm2_canon 1 (by decide) (by decide) (by decide)
private theorem wxy2_canon : wxy2.Canon := wm2_canon 1 (by decide) (by decide) (by decide)
private theorem wx2y_tidy : wx2y.Tidy := by
  intro m hm
  rw [List.mem_singleton.mp hm]
  exact Or.inl (by decide)
private theorem wxy2_tidy : wxy2.Tidy := by
  intro m hm
  rw [List.mem_singleton.mp hm]
  exact Or.inl (by decide)

/-- `x^2*y + x*y^2` is exact when both terms list `x` first; the set of exponent vectors is not rearrangement-free. -/
example : (∃ r, wx2y.plus wxy2 = .ok r ∧ r.Canon ∧ r.Tidy ∧ r.den = wx2y.den + wxy2.den) :=
  (tidy_exact wx2y_canon wxy2_canon wx2y_tidy wxy2_tidy).1

/-- The same terms as `x^2*y` and `y^2*x` are merged: one form, coefficient two (`plus_false`). -/
example : wA.plus wB = .ok (.mono (wm2 2 0 1 2 1)) ∧
    ∃ r, wA.plus wB = .ok r ∧ r.forms = wA.forms + wB.forms := by
  obtain ⟨r, h1, -, h2, -⟩ := plus_forms wA_canon wB_canon
  exact ⟨by decide +kernel, r, h1, h2⟩

/-- `(x + y) * (x*y)` as a polynomial times a monomial: the products `x^2*y` and `y^2*x` have one form, with coefficient
two. -/
example : (Scalar.poly ⟨[(Mono.mk (1 : ℚ) [1] [wx]), (Mono.mk 1 [1] [wy])]⟩).mul (.mono (wm2 1 0 1 1 1)) =
      .ok (.mono (wm2 2 0 1 2 1)) ∧
    productForms [(Mono.mk (1 : ℚ) [1] [wx]), (Mono.mk 1 [1] [wy])] [wm2 1 0 1 1 1] =
      Finsupp.single ({0, 1}, [2, 1]) 2 := by
  refine ⟨by decide +kernel, ?_⟩
  have h : Finsupp.single (({0, 1} : Finset ℕ), ([2, 1] : List Int)) (2 : ℚ) =
      Finsupp.single ({0, 1}, [2, 1]) 1 + Finsupp.single ({0, 1}, [2, 1]) 1 := by
    rw [← Finsupp.single_add]
    norm_num
  rw [h]
  simp only [productForms, List.map_cons, List.map_nil, List.sum_cons, List.sum_nil, add_zero]
  have h1 : ((Mono.mk (1 : ℚ) [1] [wx]).writing.mul (wm2 (1 : ℚ) 0 1 1 1).writing).form = ({0, 1}, [2, 1]) := by
    decide +kernel
  have h2 : ((Mono.mk (1 : ℚ) [1] [wy]).writing.mul (wm2 (1 : ℚ) 0 1 1 1).writing).form = ({0, 1}, [2, 1]) := by
    decide +kernel
  rw [h1, h2, show (wm2 (1 : ℚ) 0 1 1 1).coeff = 1 from rfl, one_mul]

/-- `x^2*y` and `y^2*x` together are not consistently written. -/
example : ¬ Consistent {([0, 1], [2, 1]), ([1, 0], [2, 1])} := by
  intro h
  have := h ([0, 1], [2, 1]) (by simp) ([1, 0], [2, 1]) (by simp) (by decide)
  have := DFunLike.congr_fun this 0
  simp [Writing.degs] at this

/-- Powers of one variable. -/
private def wPows : Set Writing := {w | ∃ e : Int, 0 ≤ e ∧ w = ([0], [e])}

private theorem wPows_prod : ProdW wPows wPows wPows := by
  have h : ProdTo wPows wPows wPows := by
    rintro w (rfl | ⟨e, he, rfl⟩) w' (rfl | ⟨e', he', rfl⟩) hne
    · exact absurd rfl hne
    · exact ⟨e', he', by simp [Writing.mul, Writing.exp]⟩
    · exact ⟨e, he, by simp [Writing.mul, Writing.exp]⟩
    · exact ⟨e + e', by omega, by simp [Writing.mul, Writing.exp]⟩
  exact ⟨h, h⟩

private theorem wPows_consistent : Consistent wPows := by
  rintro w ⟨e, _, rfl⟩ w' ⟨e', _, rfl⟩ h
  obtain rfl : e = e' := by simpa [Writing.form] using h
  rfl

private theorem wx_written : (Scalar.var wx).WrittenIn wPows := by
  intro m hm _
  rw [List.mem_singleton.mp hm]
  exact ⟨1, by decide, rfl⟩

/-- `x * x` and `x^n` for every `n`. -/
example (n : ℕ) : (∃ r, (Scalar.var wx).mul (.var wx) = .ok r ∧ r.den = X 0 * X 0) ∧
    ∃ r, (Scalar.var wx).power n = .ok r ∧ r.den = X 0 ^ n := by
  obtain ⟨r, h1, -, -, h2⟩ := mul_written wPows_prod wPows_consistent (show (Scalar.var wx).Canon from wv_ok 0)
    (show (Scalar.var wx).Canon from wv_ok 0) wx_written wx_written
  obtain ⟨s, i1, -, -, i2⟩ := power_written (show (Scalar.var wx).Canon from wv_ok 0) wx_written (fun _ => wPows)
    (fun _ => wPows_prod) n (fun _ _ => wPows_consistent)
  exact ⟨⟨r, h1, h2⟩, s, i1, i2⟩

end Verif
