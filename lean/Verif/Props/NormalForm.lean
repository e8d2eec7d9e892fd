import Verif.Lemmas.NormalForm
import Verif.Props.ArithNeg

/-!
# C07, C08, C18: normal form, smallest kind, degree
-/

set_option linter.unusedSectionVars false

namespace Verif

open MvPolynomial

variable {R : Type} [Field R] [LinearOrder R]

private theorem poly_good {D : Set (ℕ →₀ ℕ)} {p : Poly R} (hp : p.Canon)
    (tp : (Scalar.poly p).TermsIn D) : p.monos ≠ [] ∧ GoodL (fun _ => True) D p.monos :=
  good_of (s := .poly p) hp tp

/-! ## C07 -/

/-- C07, unconditional part: after `Simplify` no coefficient is zero (unless the result is the
single term `0`), at most one term is constant, and simplifying again changes nothing. -/
theorem simplify_normal_form {p : Poly R} (hp : p.Canon) :
    ∃ q, p.simplify = .ok q ∧ q.Canon ∧
      (q.monos = [⟨0, [], []⟩] ∨ ∀ m ∈ q.monos, m.coeff ≠ 0) ∧
      (q.monos.filter (fun m => m.vars.isEmpty)).length ≤ 1 ∧
      q.simplify = .ok q := by
  obtain ⟨h1, h2⟩ := poly_good hp (Scalar.termsIn_univ _)
  obtain ⟨q, hq, hq1, hq2⟩ := Poly.simplify_ok h1 h2
  have hnf := simplify_nf h1 h2 hq
  refine ⟨q, hq, ⟨hq1, fun m hm => (hq2 m hm).canon⟩, ?_, ?_, hnf.simplify_fix⟩
  · by_cases h0 : q.monos = [kToMono 0]
    · exact Or.inl h0
    · exact Or.inr (fun m hm => hnf.coeff_ne_zero h0 hm)
  · rcases hnf.form with ⟨c, e⟩ | ⟨nc, -, hv, -, e⟩
    · rw [e]; simp [kToMono]
    · have hz : nc.filter (fun m => m.vars.isEmpty) = [] := by
        rw [List.filter_eq_nil_iff]
        intro m hm
        simpa using (hv m hm).1
      rcases e with e | ⟨c, -, e⟩
      · rw [e, hz]; simp
      · rw [e, List.filter_cons, hz]
        split <;> simp

/-- C07 for flat terms (which include all terms of degree at most two): in addition no two terms
of the result have the same powers of the same variables.  Missing: non-flat terms such as
`x^2*y`, which are not merged when the factors are listed in another order
(`simplify_distinct_false`). -/
theorem simplify_normal_form_partial {p : Poly R} (hp : p.Canon)
    (tp : (Scalar.poly p).TermsIn flat) :
    ∃ q, p.simplify = .ok q ∧ (q.monos.map Mono.degs).Nodup ∧ q.den = p.den ∧
      (q.monos = [⟨0, [], []⟩] ∨ ∀ m ∈ q.monos, m.coeff ≠ 0) := by
  obtain ⟨h1, h2⟩ := poly_good hp tp
  obtain ⟨q, hq, hq1, hq2⟩ := Poly.simplify_ok h1 h2
  have hnf := simplify_nf h1 h2 hq
  refine ⟨q, hq, hnf.degs_nodup subset_rfl, Poly.simplify_den rearrFree_flat h1 h2 hq, ?_⟩
  by_cases h0 : q.monos = [kToMono 0]
  · exact Or.inl h0
  · exact Or.inr (fun m hm => hnf.coeff_ne_zero h0 hm)

/-- C07, canonicity for flat terms: polynomials that denote the same thing simplify to the same
collection of terms (exponent vector, coefficient), up to order. -/
theorem simplify_canonical_partial {p p' : Poly R} (hp : p.Canon) (hp' : p'.Canon)
    (tp : (Scalar.poly p).TermsIn flat) (tp' : (Scalar.poly p').TermsIn flat)
    (h : p.den = p'.den) :
    ∃ q q', p.simplify = .ok q ∧ p'.simplify = .ok q' ∧
      (q.monos.map (fun m => (m.degs, m.coeff))).Perm
        (q'.monos.map (fun m => (m.degs, m.coeff))) := by
  obtain ⟨q, hq, hnd, hden, hz⟩ := simplify_normal_form_partial hp tp
  obtain ⟨q', hq', hnd', hden', hz'⟩ := simplify_normal_form_partial hp' tp'
  refine ⟨q, q', hq, hq', ?_⟩
  have nd : ∀ l : List (Mono R), (l.map Mono.degs).Nodup →
      (l.map (fun m => (m.degs, m.coeff))).Nodup := by
    intro l hl
    apply List.Nodup.of_map Prod.fst
    rw [List.map_map]
    exact hl
  have hqq : lden q.monos = lden q'.monos := (hden.trans h).trans hden'.symm
  have zero_case : ∀ a b : Poly R, a.monos = [⟨0, [], []⟩] → (b.monos.map Mono.degs).Nodup →
      b.monos ≠ [] → (b.monos = [⟨0, [], []⟩] ∨ ∀ m ∈ b.monos, m.coeff ≠ 0) →
      lden a.monos = lden b.monos → b.monos = [⟨0, [], []⟩] := by
    intro a b ha hbn hbne hb hab
    rcases hb with hb | hb
    · exact hb
    · exfalso
      obtain ⟨m, hm⟩ := List.exists_mem_of_ne_nil _ hbne
      apply hb m hm
      rw [← coeff_lden hbn hm, ← hab, ha]
      simp [Mono.den, Mono.degs]
  have ne_of : ∀ (a b : Poly R), a.Canon → a.simplify = .ok b → b.monos ≠ [] := by
    intro a b ha hb
    obtain ⟨g1, g2⟩ := poly_good ha (Scalar.termsIn_univ _)
    obtain ⟨b', hb', h1, -⟩ := Poly.simplify_ok g1 g2
    rw [hb, Except.ok.injEq] at hb'
    exact hb' ▸ h1
  by_cases e : q.monos = [⟨0, [], []⟩]
  · rw [zero_case q q' e hnd' (ne_of _ _ hp' hq') hz' hqq, e]
  · have e' : q'.monos ≠ [⟨0, [], []⟩] := fun e' =>
      e (zero_case q' q e' hnd (ne_of _ _ hp hq) hz hqq.symm)
    have hn := hz.resolve_left e
    have hn' := hz'.resolve_left e'
    rw [List.perm_ext_iff_of_nodup (nd _ hnd) (nd _ hnd')]
    have half : ∀ a b : Poly R, (a.monos.map Mono.degs).Nodup → (b.monos.map Mono.degs).Nodup →
        (∀ m ∈ a.monos, m.coeff ≠ 0) → lden a.monos = lden b.monos →
        ∀ x, x ∈ a.monos.map (fun m => (m.degs, m.coeff)) →
          x ∈ b.monos.map (fun m => (m.degs, m.coeff)) := by
      intro a b ha hb hne hab x hx
      obtain ⟨m, hm, rfl⟩ := List.mem_map.mp hx
      have h1 := coeff_lden ha hm
      rw [hab] at h1
      have hmem : m.degs ∈ b.monos.map Mono.degs := by
        by_contra hc
        rw [coeff_lden_notMem hc] at h1
        exact hne m hm h1.symm
      obtain ⟨m', hm', hd⟩ := List.mem_map.mp hmem
      refine List.mem_map.mpr ⟨m', hm', ?_⟩
      rw [← hd, coeff_lden hb hm'] at h1
      simp [hd, h1]
    intro x
    exact ⟨half q q' hnd hnd' hn hqq x, half q' q hnd' hnd hn' hqq.symm x⟩

/-- C07 is false without the condition: `x^2*y + x^2*y`, with the factors of the second term listed
as `y, x`, is not merged. -/
theorem simplify_distinct_false :
    ¬ ∀ p : Poly ℚ, p.Canon → ∃ q, p.simplify = .ok q ∧ (q.monos.map Mono.degs).Nodup := by
  intro h
  obtain ⟨q, h1, h2⟩ := h ⟨[wm2 1 0 1 2 1, wm2 1 1 0 1 2]⟩ ⟨by simp, by
    intro m hm
    simp only [List.mem_cons, List.not_mem_nil, or_false] at hm
    rcases hm with rfl | rfl
    · exact wm2_canon 1 (by decide) (by decide) (by decide)
    · exact wm2_canon 1 (by decide) (by decide) (by decide)⟩
  have h3 : Poly.simplify ⟨[wm2 1 0 1 2 1, wm2 1 1 0 1 2]⟩ =
      .ok ⟨[wm2 1 0 1 2 1, wm2 1 1 0 1 2]⟩ := by decide +kernel
  rw [h3, Except.ok.injEq] at h1
  subst h1
  simp [wm2_degs, add_comm] at h2

/-! ## C08 -/

/-- The kind of `r` is decided by the polynomial it denotes. -/
def SmallestKind (r : Scalar R) : Prop :=
  ((∃ c, r = .k c) ↔ ∃ c, r.den = C c) ∧
  ((∃ v, r = .var v) ↔ ∃ i, r.den = X i) ∧
  ((∃ m, r = .mono m) ↔ (∃ d c, r.den = monomial d c ∧ c ≠ 0 ∧ d ≠ 0) ∧ ¬ ∃ i, r.den = X i)

private theorem C_ne_monomial {d : ℕ →₀ ℕ} {c c' : R} (hc : c ≠ 0) (hd : d ≠ 0) :
    (monomial d c : MvPolynomial ℕ R) ≠ C c' := by
  intro h
  have := congrArg (coeff d) h
  rw [coeff_monomial, if_pos rfl, coeff_C, if_neg hd.symm] at this
  exact hc this

private theorem smallest_k (c : R) : SmallestKind (.k c) := by
  have hX : ∀ i, C c ≠ (X i : MvPolynomial ℕ R) := fun i h =>
    C_ne_monomial (one_ne_zero (α := R)) (Finsupp.single_ne_zero.mpr one_ne_zero) h.symm
  refine ⟨⟨fun _ => ⟨c, rfl⟩, fun _ => ⟨c, rfl⟩⟩, ⟨by simp, ?_⟩, ⟨by simp, ?_⟩⟩
  · rintro ⟨i, hi⟩; exact absurd hi (hX i)
  · rintro ⟨⟨d, e, h, h1, h2⟩, -⟩
    exact absurd h.symm (C_ne_monomial h1 h2)

private theorem smallest_var (v : Var R) : SmallestKind (.var v) := by
  have hX : ∀ c, (X v.id : MvPolynomial ℕ R) ≠ C c := fun c h =>
    C_ne_monomial (one_ne_zero (α := R)) (Finsupp.single_ne_zero.mpr one_ne_zero) h
  refine ⟨⟨by simp, ?_⟩, ⟨fun _ => ⟨v.id, rfl⟩, fun _ => ⟨v, rfl⟩⟩, ⟨by simp, ?_⟩⟩
  · rintro ⟨c, h⟩; exact absurd h (hX c)
  · rintro ⟨-, h⟩; exact absurd ⟨v.id, rfl⟩ h

private theorem smallest_mono {m : Mono R} (hm : m.Canon) (hv : m.vars ≠ []) (hc : m.coeff ≠ 0)
    (hn : ¬ (m.exps = [1] ∧ m.vars.length = 1 ∧ m.coeff = 1)) : SmallestKind (.mono m) := by
  have hd : m.degs ≠ 0 := fun h => hv (hm.degs_eq_zero.mp h)
  have hX : ¬ ∃ i, (Scalar.mono m).den = X i := by
    rintro ⟨i, h⟩
    have h' : (monomial m.degs m.coeff : MvPolynomial ℕ R) = monomial (Finsupp.single i 1) 1 := h
    rw [monomial_eq_monomial_iff] at h'
    rcases h' with ⟨h1, h2⟩ | ⟨h1, -⟩
    · apply hn
      have hs : m.vars.length = 1 := by
        have := congrArg Finset.card hm.support
        rw [List.toFinset_card_of_nodup hm.nodup, List.length_map, h1,
          Finsupp.support_single _ one_ne_zero, Finset.card_singleton] at this
        exact this.symm
      refine ⟨?_, hs, h2⟩
      have hl := hm.len
      rw [hs] at hl
      obtain ⟨e, he⟩ := List.length_eq_one_iff.mp hl
      obtain ⟨v, hv'⟩ := List.length_eq_one_iff.mp hs
      have hpos := hm.pos e (by simp [he])
      rcases m with ⟨c, es, vs⟩
      simp only at he hv'
      subst he hv'
      rw [Var.degs_one] at h1
      have h3 := DFunLike.congr_fun h1 v.id
      rw [Finsupp.single_apply, if_pos rfl, Finsupp.single_apply] at h3
      split at h3
      · simp only [List.cons.injEq, and_true]; omega
      · omega
    · exact hc h1
  refine ⟨⟨by simp, ?_⟩, ⟨by simp, fun h => absurd h hX⟩, ⟨fun _ => ⟨⟨_, _, rfl, hc, hd⟩, hX⟩,
    fun _ => ⟨m, rfl⟩⟩⟩
  rintro ⟨c, h⟩
  exact absurd h (C_ne_monomial hc hd)

private theorem smallest_poly {l : List (Mono R)} (hl : 2 ≤ l.length)
    (hnd : (l.map Mono.degs).Nodup) (hc : ∀ m ∈ l, m.coeff ≠ 0) : SmallestKind (.poly ⟨l⟩) := by
  obtain ⟨a, b, hab, ha, hb⟩ : ∃ a b : Mono R, a.degs ≠ b.degs ∧ a ∈ l ∧ b ∈ l := by
    match l, hl, hnd with
    | a :: b :: l, _, hnd =>
      refine ⟨a, b, ?_, by simp, by simp⟩
      simp only [List.map_cons, List.nodup_cons, List.mem_cons, not_or] at hnd
      exact hnd.1.1
  have hone : ∀ d c, lden l ≠ monomial d c := by
    intro d c h
    have h1 := coeff_lden hnd ha
    have h2 := coeff_lden hnd hb
    rw [h, coeff_monomial] at h1 h2
    have e1 : d = a.degs := by
      by_contra hne
      rw [if_neg hne] at h1
      exact hc a ha h1.symm
    have e2 : d = b.degs := by
      by_contra hne
      rw [if_neg hne] at h2
      exact hc b hb h2.symm
    exact hab (e1.symm.trans e2)
  refine ⟨⟨by simp, ?_⟩, ⟨by simp, ?_⟩, ⟨by simp, ?_⟩⟩
  · rintro ⟨c, h⟩; exact absurd h (hone 0 c)
  · rintro ⟨i, h⟩; exact absurd h (hone _ 1)
  · rintro ⟨⟨d, c, h, -⟩, -⟩; exact absurd h (hone d c)

private theorem simpResult_smallest {l : List (Mono R)} {r : Scalar R}
    (h : NF (fun _ => True) flat l) (hr : SimpResult l r) : SmallestKind r := by
  have hnd := h.degs_nodup subset_rfl
  cases hr with
  | const c _ => exact smallest_k c
  | var c v _ _ => exact smallest_var v
  | mono m hl hv hn =>
    have hm : m ∈ l := by simp [hl]
    refine smallest_mono (h.good m hm).canon hv (h.coeff_ne_zero ?_ hm) (by simpa using hn)
    intro e
    rw [hl, List.cons.injEq] at e
    exact hv (by rw [e.1]; rfl)
  | poly hl =>
    refine smallest_poly hl hnd (fun m hm => h.coeff_ne_zero ?_ hm)
    intro e
    rw [e] at hl
    simp at hl

/-- C08 for flat terms.  Missing: non-flat terms (`smallestKind_false`). -/
theorem asSimplified_smallest_partial {a : Scalar R} (ha : a.Canon) (ta : a.TermsIn flat) :
    ∃ r, a.asSimplified = .ok r ∧ r.den = a.den ∧ SmallestKind r := by
  obtain ⟨r, h1, -, -, h4⟩ := asSimplified_denotes_same_partial rearrFree_flat ha ta
  refine ⟨r, h1, h4, ?_⟩
  have hg := good_of ha ta
  cases a with
  | k c =>
    have : r = .k c := by
      simpa [Scalar.asSimplified, Go.pure_eq, eq_comm] using h1
    exact this ▸ smallest_k c
  | var v =>
    have : r = .var v := by
      simpa [Scalar.asSimplified, Go.pure_eq, eq_comm] using h1
    exact this ▸ smallest_var v
  | mono m =>
    have hm : m.Canon := ha
    change m.asSimplified = .ok r at h1
    rw [Mono.asSimplified_eq hm, Except.ok.injEq] at h1
    subst h1
    split
    · exact smallest_k _
    · split
      · exact smallest_k _
      · split
        · split
          · exact smallest_var _
          · exact smallest_k _
        · rename_i hv hc hn
          refine smallest_mono hm hv (by simpa using hc) ?_
          rintro ⟨e1, -, e3⟩
          exact hn ⟨by simpa using e3, e1⟩
  | poly p =>
    obtain ⟨r', h5, q, hq, -, -, hr⟩ := Poly.asSimplified_ok hg.1 hg.2
    change p.asSimplified = .ok r at h1
    rw [h1, Except.ok.injEq] at h5
    subst h5
    exact simpResult_smallest (simplify_nf hg.1 hg.2 hq) hr

/-- C08 for the results of `Plus`, for flat terms. -/
theorem plus_smallest_partial {a b : Scalar R} (ha : a.Canon) (hb : b.Canon)
    (ta : a.TermsIn flat) (tb : b.TermsIn flat) :
    ∃ r, a.plus b = .ok r ∧ r.den = a.den + b.den ∧ SmallestKind r := by
  obtain ⟨r, h1, -, -, h4⟩ := plus_denotes_sum_partial rearrFree_flat ha hb ta tb
  obtain ⟨s, hs, hs'⟩ := Scalar.plus_ends (good_of ha ta) (good_of hb tb)
  rw [good_iff] at hs
  obtain ⟨r', h5, -, h6⟩ := asSimplified_smallest_partial hs.1 hs.2.1
  rw [← hs', h1, Except.ok.injEq] at h5
  exact ⟨r, h1, h4, h5 ▸ h6⟩

/-- C08 is false without the condition: `x^2*y - x^2*y`, with the factors of the second term listed
as `y, x`, stays a `Polynomial` although it denotes the constant `0`. -/
theorem smallestKind_false :
    ¬ ∀ a : Scalar ℚ, a.Canon → ∃ r, a.asSimplified = .ok r ∧ SmallestKind r := by
  intro h
  obtain ⟨r, h1, h2⟩ := h (.poly ⟨[wm2 1 0 1 2 1, wm2 (-1) 1 0 1 2]⟩) ⟨by simp, by
    intro m hm
    simp only [List.mem_cons, List.not_mem_nil, or_false] at hm
    rcases hm with rfl | rfl
    · exact wm2_canon 1 (by decide) (by decide) (by decide)
    · exact wm2_canon (-1) (by decide) (by decide) (by decide)⟩
  have h3 : (Scalar.poly ⟨[wm2 1 0 1 2 1, wm2 (-1) 1 0 1 2]⟩).asSimplified =
      .ok (.poly ⟨[wm2 1 0 1 2 1, wm2 (-1) 1 0 1 2]⟩) := by decide +kernel
  rw [h3, Except.ok.injEq] at h1
  subst h1
  have h4 := h2.1.mpr ⟨0, by
    simp only [Scalar.den_poly, lden_cons, lden_nil, wm2_den, map_one, map_neg, map_zero]
    ring⟩
  obtain ⟨c, hc⟩ := h4
  simp at hc

/-! ## C18 -/

/-- Degree of the monomial `m` as a total degree of its exponent vector. -/
theorem Mono.exps_sum {m : Mono R} (hm : m.Canon) :
    m.exps.sum = ((m.degs.sum fun _ e => e : ℕ) : Int) := by
  unfold Finsupp.sum Finset.sum
  rw [hm.values, Multiset.sum_coe]
  have : ∀ l : List Int, (∀ e ∈ l, 0 < e) → l.sum = (((l.map Int.toNat).sum : ℕ) : Int) := by
    intro l hl
    induction l with
    | nil => simp
    | cons a l ih =>
      have := hl a (by simp)
      rw [List.sum_cons, List.map_cons, List.sum_cons, Nat.cast_add,
        ← ih (fun e he => hl e (by simp [he]))]
      omega
  exact this _ hm.pos

private theorem totalDegree_lden_le {l : List (Mono R)} {N : ℕ}
    (h : ∀ m ∈ l, (m.degs.sum fun _ e => e) ≤ N) : (lden l).totalDegree ≤ N := by
  induction l with
  | nil => simp
  | cons a l ih =>
    rw [lden_cons]
    refine (totalDegree_add _ _).trans (max_le ?_ (ih (fun m hm => h m (by simp [hm]))))
    exact (totalDegree_monomial_le _ _).trans (h a (by simp))

/-- C18, upper bound: for every well-formed scalar expression `Degree()` returns a number that is at
least the total degree of the denoted polynomial. -/
theorem degree_upper_bound {a : Scalar R} (ha : a.Canon) :
    ∃ n : Int, a.degree = .ok n ∧ (a.den.totalDegree : Int) ≤ n := by
  cases a with
  | k c => exact ⟨0, rfl, by simp⟩
  | var v => exact ⟨1, rfl, by simp⟩
  | mono m =>
    have hm : m.Canon := ha
    refine ⟨_, Mono.degree_ok hm.len, ?_⟩
    rw [Mono.exps_sum hm]
    exact_mod_cast totalDegree_monomial_le m.degs m.coeff
  | poly p =>
    have hp : p.Canon := ha
    refine ⟨_, Poly.degree_ok hp.ne (fun m hm => (hp.all m hm).len), ?_⟩
    have h0 := maxDeg_nonneg p.monos
    have : (lden p.monos).totalDegree ≤ (maxDeg p.monos).toNat := by
      apply totalDegree_lden_le
      intro m hm
      have h1 := le_maxDeg hm
      rw [Mono.exps_sum (hp.all m hm)] at h1
      omega
    show ((lden p.monos).totalDegree : Int) ≤ _
    omega

/-- `AsSimplifiedExpression` is idempotent: its results are fixed by it. -/
theorem asSimplified_idempotent {a : Scalar R} (ha : a.Canon) :
    ∃ r, a.asSimplified = .ok r ∧ r.asSimplified = .ok r := by
  have mono_fix : ∀ m : Mono R, m.Canon → m.vars ≠ [] → m.coeff ≠ 0 →
      ¬ (m.coeff = 1 ∧ m.exps = [1]) → (Scalar.mono m).asSimplified = .ok (.mono m) := by
    intro m hm hv hc hn
    show m.asSimplified = _
    rw [Mono.asSimplified_eq hm, if_neg hv, if_neg (by simpa using hc), if_neg (by simpa using hn)]
  have hg := good_of_univ ha
  cases a with
  | k c => exact ⟨.k c, rfl, rfl⟩
  | var v => exact ⟨.var v, rfl, rfl⟩
  | mono m =>
    have hm : m.Canon := ha
    refine ⟨_, Mono.asSimplified_eq hm, ?_⟩
    split
    · rfl
    · split
      · rfl
      · split
        · split <;> rfl
        · rename_i hv hc hn
          exact mono_fix m hm hv (by simpa using hc) (by simpa using hn)
  | poly p =>
    obtain ⟨r, h1, q, hq, hqne, hqg, hr⟩ := Poly.asSimplified_ok hg.1 hg.2
    have hnf := simplify_nf hg.1 hg.2 hq
    refine ⟨r, h1, ?_⟩
    cases hr with
    | const c _ => rfl
    | var c v _ _ => rfl
    | mono m hl hv hn =>
      have hm : m ∈ q.monos := by simp [hl]
      refine mono_fix m (hqg m hm).canon hv (hnf.coeff_ne_zero ?_ hm) ?_
      · intro e
        rw [hl, List.cons.injEq] at e
        exact hv (by rw [e.1]; rfl)
      · rintro ⟨e1, e2⟩
        apply hn
        refine ⟨e2, ?_, by simpa using e1⟩
        rw [← (hqg m hm).canon.len, e2]; rfl
    | poly hl =>
      obtain ⟨r', h5, q', hq', -, -, hr'⟩ := Poly.asSimplified_ok (p := ⟨q.monos⟩) hqne hqg
      rw [hnf.simplify_fix, Except.ok.injEq] at hq'
      subst hq'
      show Poly.asSimplified _ = _
      rw [h5]
      congr 1
      cases hr' with
      | const c h => simp only at h; rw [h] at hl; simp at hl
      | var c v h _ => simp only at h; rw [h] at hl; simp at hl
      | mono m h _ _ => simp only at h; rw [h] at hl; simp at hl
      | poly _ => rfl

/-- C18, equality for simplified expressions with flat terms.  *Simplified* means fixed by
`AsSimplifiedExpression`, as all its results are (`asSimplified_idempotent`).  Missing: non-flat
terms (`degree_false`). -/
theorem degree_eq_totalDegree_partial {a : Scalar R} (ha : a.Canon) (ta : a.TermsIn flat)
    (hs : a.asSimplified = .ok a) : a.degree = .ok (a.den.totalDegree : Int) := by
  have hg := good_of ha ta
  cases a with
  | k c => simp [Scalar.degree, Go.pure_eq]
  | var v => simp [Scalar.degree, Go.pure_eq]
  | mono m =>
    have hm : m.Canon := ha
    have hc : m.coeff ≠ 0 := by
      intro hc
      change m.asSimplified = _ at hs
      rw [Mono.asSimplified_eq hm, Except.ok.injEq] at hs
      split at hs
      · simp at hs
      · rw [if_pos (by simpa using hc)] at hs
        simp at hs
    show m.degree = _
    rw [Mono.degree_ok hm.len, Mono.exps_sum hm]
    congr 2
    exact (totalDegree_monomial m.degs hc).symm
  | poly p =>
    obtain ⟨r, h1, q, hq, -, -, hr⟩ := Poly.asSimplified_ok hg.1 hg.2
    change p.asSimplified = _ at hs
    rw [hs, Except.ok.injEq] at h1
    subst h1
    have hnf := simplify_nf hg.1 hg.2 hq
    cases hr with
    | poly hl =>
      obtain ⟨n, hn1, hn2⟩ := degree_upper_bound ha
      rw [hn1]
      congr 1
      refine le_antisymm ?_ hn2
      have hn3 : n = maxDeg q.monos := by
        have := Poly.degree_ok hg.1 (fun m hm => (hg.2 m hm).canon.len)
        change Poly.degree _ = _ at hn1
        rw [hn1, Except.ok.injEq] at this
        exact this
      rw [hn3]
      rcases maxDeg_mem q.monos with h0 | ⟨m, hm, h0⟩
      · rw [h0]; exact Int.natCast_nonneg _
      · rw [h0, Mono.exps_sum (hnf.good m hm).canon]
        have hmc : m.coeff ≠ 0 := hnf.coeff_ne_zero (by
          intro e; rw [e] at hl; simp at hl) hm
        have : m.degs ∈ (lden q.monos).support := by
          rw [mem_support_iff, coeff_lden (hnf.degs_nodup subset_rfl) hm]
          exact hmc
        exact_mod_cast le_totalDegree this

/-- C18: `IsLinear` and `IsQuadratic` answer correctly on simplified expressions with flat terms. -/
theorem isLinear_correct_partial {a : Scalar R} (ha : a.Canon) (ta : a.TermsIn flat)
    (hs : a.asSimplified = .ok a) :
    a.isLinear = .ok (decide (a.den.totalDegree ≤ 1)) ∧
    a.isQuadratic = .ok (decide (a.den.totalDegree ≤ 2)) := by
  have h := degree_eq_totalDegree_partial ha ta hs
  unfold Scalar.isLinear Scalar.isQuadratic
  rw [h]
  simp only [Go.ok_bind, Go.pure_eq]
  constructor
  · congr 2
    rw [eq_iff_iff]; omega
  · congr 2
    rw [eq_iff_iff]; omega

/-- C18: on every well-formed expression, simplified or not, a positive answer of `IsLinear` or
`IsQuadratic` is right. -/
theorem isLinear_sound {a : Scalar R} (ha : a.Canon) :
    (a.isLinear = .ok true → a.den.totalDegree ≤ 1) ∧
    (a.isQuadratic = .ok true → a.den.totalDegree ≤ 2) := by
  obtain ⟨n, h1, h2⟩ := degree_upper_bound ha
  unfold Scalar.isLinear Scalar.isQuadratic
  rw [h1]
  simp only [Go.ok_bind, Go.pure_eq, Except.ok.injEq, decide_eq_true_eq]
  omega

/-- C18 is false for non-flat terms: `x^2*y - x^2*y`, with the factors of the second term listed as
`y, x`, is its own simplification, has `Degree() = 3` and denotes `0`. -/
theorem degree_false :
    ¬ ∀ a : Scalar ℚ, a.Canon → a.asSimplified = .ok a →
      a.degree = .ok (a.den.totalDegree : Int) := by
  intro h
  have h1 := h (.poly ⟨[wm2 1 0 1 2 1, wm2 (-1) 1 0 1 2]⟩) ⟨by simp, by
    intro m hm
    simp only [List.mem_cons, List.not_mem_nil, or_false] at hm
    rcases hm with rfl | rfl
    · exact wm2_canon 1 (by decide) (by decide) (by decide)
    · exact wm2_canon (-1) (by decide) (by decide) (by decide)⟩ (by decide +kernel)
  have h2 : (Scalar.poly ⟨[wm2 1 0 1 2 1, wm2 (-1) 1 0 1 2]⟩).den = 0 := by
    simp only [Scalar.den_poly, lden_cons, lden_nil, wm2_den, map_one, map_neg]
    ring
  have h3 : (Scalar.poly ⟨[wm2 1 0 1 2 1, wm2 (-1) 1 0 1 2]⟩).degree = .ok 3 := by decide +kernel
  rw [h2, h3, Except.ok.injEq] at h1
  simp at h1

/-! ## Non-vacuity -/

theorem wQ_flat : wQ.TermsIn flat := wQ_terms.mono degLE_two_flat

/-- `3xy + 2x + 5` meets the hypotheses of the C07 and C08 theorems. -/
example : ∃ r, wQ.asSimplified = .ok r ∧ r.den = wQ.den ∧ SmallestKind r :=
  asSimplified_smallest_partial wQ_canon wQ_flat

example : ∃ q, Poly.simplify ⟨[wm2 3 0 1 1 1, wm1 2 0 1, wm0 5]⟩ = .ok q ∧
    (q.monos.map Mono.degs).Nodup ∧ q.den = (Poly.mk [wm2 3 0 1 1 1, wm1 2 0 1, wm0 5]).den ∧
    (q.monos = [⟨0, [], []⟩] ∨ ∀ m ∈ q.monos, m.coeff ≠ 0) :=
  simplify_normal_form_partial wQ_canon wQ_flat

/-- `5 + 3xy + 2x` is simplified and meets the hypotheses of the C18 theorem. -/
example : (Scalar.poly ⟨[wm0 5, wm2 3 0 1 1 1, wm1 2 0 1]⟩).asSimplified =
    .ok (.poly ⟨[wm0 5, wm2 3 0 1 1 1, wm1 2 0 1]⟩) := by decide +kernel

/-- Terms are merged and cancelled: `x + y - x` is the variable `y`. -/
example : (Scalar.poly ⟨[wm1 1 0 1, wm1 1 1 1, wm1 (-1) 0 1]⟩).asSimplified = .ok (.var wy) := by
  decide +kernel

end Verif
