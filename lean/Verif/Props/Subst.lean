import Verif.Lemmas.Subst
import Verif.Props.ArithNeg

/-!
# C12, C13: substitution in scalar expressions
-/

set_option linter.unusedSectionVars false

namespace Verif

open MvPolynomial

variable {R : Type}

/-! ## Families closed under substitution -/

theorem sumsUpTo_degLE {a n : ℕ} {T : Set (ℕ →₀ ℕ)} (hT : T ⊆ degLE a) {d : ℕ →₀ ℕ}
    (h : SumsUpTo T n d) : (d.sum fun _ e => e) ≤ n * a := by
  obtain ⟨l, h1, h2, rfl⟩ := h
  have : (l.sum.sum fun _ e => e) ≤ l.length * a := by
    clear h1
    induction l with
    | nil => simp
    | cons x l ih =>
      rw [List.sum_cons, degree_add, List.length_cons, Nat.succ_mul, Nat.add_comm]
      exact Nat.add_le_add (ih (fun y hy => h2 y (by simp [hy]))) (hT (h2 x (by simp)))
  exact this.trans (Nat.mul_le_mul_right _ h1)

theorem substTerms_degLE {a b : ℕ} {T : ℕ → Set (ℕ →₀ ℕ)} (hT : ∀ i, T i ⊆ degLE a)
    {d : ℕ →₀ ℕ} (hd : d ∈ degLE b) : SubstTerms T d ⊆ degLE (b * a) := by
  rintro _ ⟨g, hg, rfl⟩
  show ((∑ i ∈ d.support, g i).sum fun _ e => e) ≤ b * a
  have key : ∀ s : Finset ℕ, s ⊆ d.support →
      ((∑ i ∈ s, g i).sum fun _ e => e) ≤ (∑ i ∈ s, d i) * a := by
    intro s
    induction s using Finset.induction_on with
    | empty => simp
    | insert i s hi ih =>
      intro hs
      rw [Finset.sum_insert hi, Finset.sum_insert hi, degree_add, Nat.add_mul]
      exact Nat.add_le_add (sumsUpTo_degLE (hT i) (hg i (hs (by simp))))
        (ih (fun j hj => hs (by simp [hj])))
  exact (key _ subset_rfl).trans (Nat.mul_le_mul_right _ hd)

theorem substTerms_univ1 {x : ℕ} {T : ℕ → Set (ℕ →₀ ℕ)} {d : ℕ →₀ ℕ}
    (hT : ∀ i ∈ d.support, T i ⊆ univ1 x) : SubstTerms T d ⊆ univ1 x := by
  rintro _ ⟨g, hg, rfl⟩
  have hz : (0 : ℕ →₀ ℕ) ∈ univ1 x := by simp [univ1]
  have hlist : ∀ l : List (ℕ →₀ ℕ), (∀ y ∈ l, y ∈ univ1 x) → l.sum ∈ univ1 x := by
    intro l
    induction l with
    | nil => exact fun _ => hz
    | cons a l ih =>
      intro h
      rw [List.sum_cons]
      exact (prodIn_univ1 x).add _ (h a (by simp)) _ (ih (fun y hy => h y (by simp [hy])))
  have key : ∀ s : Finset ℕ, s ⊆ d.support → ∑ i ∈ s, g i ∈ univ1 x := by
    intro s
    induction s using Finset.induction_on with
    | empty => exact fun _ => hz
    | insert i s hi ih =>
      intro hs
      rw [Finset.sum_insert hi]
      obtain ⟨l, -, h2, h3⟩ := hg i (hs (by simp))
      refine (prodIn_univ1 x).add _ ?_ _ (ih (fun j hj => hs (by simp [hj])))
      rw [← h3]
      exact hlist l (fun y hy => hT i (hs (by simp)) (h2 y hy))
  exact key _ subset_rfl

/-- If every variable is kept or replaced by a constant, only factors of the term appear. -/
theorem substTerms_const {T : ℕ → Set (ℕ →₀ ℕ)} (hT : ∀ i, T i ⊆ {Finsupp.single i 1})
    (d : ℕ →₀ ℕ) : SubstTerms T d ⊆ {d' | d' ≤ d} := by
  rintro _ ⟨g, hg, rfl⟩
  have h1 : ∀ i ∈ d.support, g i ≤ Finsupp.single i (d i) := by
    intro i hi
    obtain ⟨l, h1, h2, h3⟩ := hg i hi
    have hl : l.sum = Finsupp.single i l.length := by
      clear h1 h3
      induction l with
      | nil => simp
      | cons a l ih =>
        rw [List.sum_cons, ih (fun y hy => h2 y (by simp [hy])),
          Set.mem_singleton_iff.mp (hT i (h2 a (by simp))), ← Finsupp.single_add,
          List.length_cons, Nat.add_comm]
    rw [← h3, hl]
    exact Finsupp.single_le_single.mpr h1
  show ∑ i ∈ d.support, g i ≤ d
  calc ∑ i ∈ d.support, g i ≤ ∑ i ∈ d.support, Finsupp.single i (d i) := Finset.sum_le_sum h1
    _ = d := Finsupp.sum_single d

/-! ## C12 -/

/-- What replaces variable `i` in `Substitute(v, s)`. -/
noncomputable def substFor [CommSemiring R] (v : Var R) (s : Scalar R) (i : ℕ) :
    MvPolynomial ℕ R := if i = v.id then s.den else X i

/-- The exponent vectors of what replaces variable `i`. -/
def substTermsFor (v : Var R) (T : Set (ℕ →₀ ℕ)) (i : ℕ) : Set (ℕ →₀ ℕ) :=
  if i = v.id then T else {Finsupp.single i 1}

/-- The variables of `e` that carry the ID of `v` are in the environment of `v`. -/
def SameEnv (v : Var R) (e : Scalar R) : Prop := ∀ w, e.Mentions w → w.id = v.id → w.env = v.env

section Struct
variable [GoNum R]

theorem mono_substitute_eq {m : Mono R} (hm : m.Canon) {v : Var R} (hv : v.OK)
    {s : Scalar R} (hs : s.check = .ok ()) :
    m.substitute v s = if v.id ∈ m.vars.map (·.id) then
      (m.vars.zip m.exps).foldlM (subStep (fun w => w.substitute v s)) (.k m.coeff)
      else .ok (.mono m) := by
  unfold Mono.substitute
  rw [hm.check, hv.check, hs, Go.ok_bind, Go.ok_bind, Go.ok_bind]
  cases h : findVar v m.vars with
  | none => rw [if_neg (findVar_eq_none.mp h)]; rfl
  | some i =>
    have : v.id ∈ m.vars.map (·.id) := by
      by_contra hc
      rw [findVar_eq_none.mpr hc] at h
      cases h
    rw [if_pos this]
    rfl

theorem var_substitute_eq {w v : Var R} (hw : w.OK) (hv : v.OK) {s : Scalar R}
    (hs : s.check = .ok ()) :
    w.substitute v s = .ok (if w.id = v.id ∧ w.env = v.env then s else .var w) := by
  unfold Var.substitute
  rw [hw.check, hv.check, hs, Go.ok_bind, Go.ok_bind, Go.ok_bind]
  split <;> rfl

/-- C12, C43: `Substitute` on well-formed operands does not panic and its result is well formed and
mentions only variables of the two operands (every number type). -/
theorem substitute_total {e s : Scalar R} {v : Var R} (he : e.Canon) (hv : v.OK) (hs : s.Canon) :
    ∃ r, e.substitute v s = .ok r ∧ r.Canon ∧ ∀ w, r.Mentions w → e.Mentions w ∨ s.Mentions w := by
  have gs : Good (fun w => e.Mentions w ∨ s.Mentions w) Set.univ s :=
    good_mentions hs s.termsIn_univ (fun w h => Or.inr h)
  have ge : Good (fun w => e.Mentions w ∨ s.Mentions w) Set.univ e :=
    good_mentions he e.termsIn_univ (fun w h => Or.inl h)
  suffices h : Go.Ok (e.substitute v s) (Good (fun w => e.Mentions w ∨ s.Mentions w) Set.univ) by
    obtain ⟨r, h1, h2⟩ := h
    rw [good_iff] at h2
    exact ⟨r, h1, h2.1, h2.2.2⟩
  have hsc := gs.check
  generalize (fun w => e.Mentions w ∨ s.Mentions w) = P at *
  have hvar : ∀ w : Var R, w.OK → P w → Go.Ok (w.substitute v s) (Good P Set.univ) := by
    intro w hw hP
    rw [var_substitute_eq hw hv hsc]
    refine ⟨_, rfl, ?_⟩
    split
    · exact gs
    · exact ⟨hw, hP, trivial⟩
  have hmono : ∀ m : Mono R, GoodM P Set.univ m → Go.Ok (m.substitute v s) (Good P Set.univ) := by
    intro m hm
    rw [mono_substitute_eq hm.canon hv hsc]
    split
    · exact subFold_good hm.canon (fun w hw => hvar w (hm.canon.ok w hw) (hm.vars w hw)) _
    · exact ⟨_, rfl, hm⟩
  cases e with
  | k c => exact ⟨_, rfl, trivial⟩
  | var w => exact hvar w ge.1 ge.2.1
  | mono m => exact hmono m ge
  | poly p =>
    show Go.Ok (p.substitute v s) _
    unfold Poly.substitute
    rw [GoodL.check ge.1 ge.2, hv.check, hsc, Go.ok_bind, Go.ok_bind, Go.ok_bind]
    refine (sumFold_good (fun m hm => hmono m (ge.2 m hm))).bind ?_
    exact fun _ h => Scalar.asSimplified_good h

end Struct

section Value
variable [Field R] [LinearOrder R]

theorem eval_bind₁ (ρ : ℕ → R) (φ : ℕ → MvPolynomial ℕ R) (f : MvPolynomial ℕ R) :
    eval ρ (bind₁ φ f) = eval (fun i => eval ρ (φ i)) f := by
  exact eval₂Hom_bind₁ (RingHom.id R) ρ φ f

/-- C12: `Substitute` is composition, when all exponent vectors that can appear are in a
rearrangement-free set.  Missing: other terms (`substitute_false`), because they are collected with
`Plus`; variables with the same ID in another environment (`substitute_env_false`). -/
theorem substitute_denotes_bind_partial {D T : Set (ℕ →₀ ℕ)} {e s : Scalar R} {v : Var R}
    (hD : RearrFree D) (he : e.Canon) (hv : v.OK) (hs : s.Canon) (henv : SameEnv v e)
    (ts : s.TermsIn T) (hin : ∀ d, e.HasTerm d → SubstTerms (substTermsFor v T) d ⊆ D) :
    ∃ r, e.substitute v s = .ok r ∧ r.Canon ∧ r.TermsIn D ∧
      r.den = bind₁ (substFor v s) e.den := by
  have gs : Good (fun _ => True) T s := good_of hs ts
  have hsc := gs.check
  have hvar : ∀ w : Var R, w.OK → (w.id = v.id → w.env = v.env) → Go.Ok (w.substitute v s)
      (GoodDen (fun _ => True) (substTermsFor v T w.id) (substFor v s w.id)) := by
    intro w hw hwe
    rw [var_substitute_eq hw hv hsc]
    refine ⟨_, rfl, ?_⟩
    unfold substTermsFor substFor
    by_cases h : w.id = v.id
    · rw [if_pos (And.intro h (hwe h)), if_pos h, if_pos h]
      exact ⟨gs, rfl⟩
    · rw [if_neg (show ¬ (w.id = v.id ∧ w.env = v.env) from fun hc => h hc.1), if_neg h, if_neg h]
      exact ⟨⟨hw, trivial, rfl⟩, rfl⟩
  have hmono : ∀ m : Mono R, m.Canon → (∀ w ∈ m.vars, w.id = v.id → w.env = v.env) →
      SubstTerms (substTermsFor v T) m.degs ⊆ D →
      Go.Ok (m.substitute v s) (GoodDen (fun _ => True) D (bind₁ (substFor v s) m.den)) := by
    intro m hm hme hmD
    have hP : PSet (substTermsFor v T) (m.vars.zip m.exps) ⊆ D := (PSet_subst _ hm).trans hmD
    rw [mono_substitute_eq hm hv hsc]
    split
    · rw [bind₁_mono]
      refine (subFold_den hm (fun w hw => hvar w (hm.ok w hw) (hme w hw)) (hD.mono hP) _).mono ?_
      exact fun r hr => ⟨hr.1.weaken (fun _ h => h) hP, hr.2⟩
    · next hno =>
      refine ⟨_, rfl, ⟨hm, fun _ _ => trivial, Or.inr (hP (degs_mem_PSet ?_))⟩, ?_⟩
      · intro w hw
        have : w.id ≠ v.id := fun hc => hno (hc ▸ List.mem_map.mpr ⟨w, hw, rfl⟩)
        simp [substTermsFor, this]
      · rw [bind₁_mono, Scalar.den_mono, Mono.den_eq_prod]
        congr 2
        apply List.map_congr_left
        rintro ⟨w, e⟩ hwe
        have : w.id ≠ v.id := fun hc =>
          hno (hc ▸ List.mem_map.mpr ⟨w, (List.of_mem_zip hwe).1, rfl⟩)
        simp [substFor, this]
  have fin : ∀ x : Go (Scalar R), Go.Ok x (GoodDen (fun _ => True) D (bind₁ (substFor v s) e.den)) →
      ∃ r, x = .ok r ∧ r.Canon ∧ r.TermsIn D ∧ r.den = bind₁ (substFor v s) e.den := by
    rintro x ⟨r, h1, h2, h3⟩
    rw [good_iff] at h2
    exact ⟨r, h1, h2.1, h2.2.1, h3⟩
  apply fin
  cases e with
  | k c => exact ⟨_, rfl, trivial, by simp⟩
  | var w =>
    refine (hvar w he (henv w rfl)).mono ?_
    rintro r ⟨h1, h2⟩
    refine ⟨h1.weaken (fun _ h => h) ?_, by rw [h2]; simp⟩
    intro d hd
    apply hin _ rfl
    refine ⟨fun _ => d, ?_, ?_⟩
    · intro i hi
      rw [Finsupp.support_single _ one_ne_zero, Finset.mem_singleton] at hi
      subst hi
      exact ⟨[d], by simp, by simpa using hd, by simp⟩
    · rw [Finsupp.support_single _ one_ne_zero, Finset.sum_singleton]
  | mono m => exact hmono m he (fun w hw => henv w hw) (hin _ rfl)
  | poly p =>
    have hp : p.Canon := he
    show Go.Ok (p.substitute v s) _
    unfold Poly.substitute
    rw [show p.check = .ok () from Good.check (s := .poly p) (good_of_univ (s := .poly p) hp), hv.check, hsc, Go.ok_bind,
      Go.ok_bind, Go.ok_bind]
    refine (sumFold_den hD (fun m hm => hmono m (hp.all m hm) (fun w hw => henv w ⟨m, hm, hw⟩)
      (hin _ ⟨m, hm, rfl⟩))).bind ?_
    rintro r ⟨h1, h2⟩
    exact Scalar.asSimplified_den hD ⟨h1, h2⟩

/-- C12 at the level of values: evaluating the result is evaluating `e` with `v` set to the value
of `s`. -/
theorem substitute_value_partial {D T : Set (ℕ →₀ ℕ)} {e s : Scalar R} {v : Var R}
    (hD : RearrFree D) (he : e.Canon) (hv : v.OK) (hs : s.Canon) (henv : SameEnv v e)
    (ts : s.TermsIn T) (hin : ∀ d, e.HasTerm d → SubstTerms (substTermsFor v T) d ⊆ D) :
    ∃ r, e.substitute v s = .ok r ∧
      ∀ ρ, r.value ρ = e.value (Function.update ρ v.id (s.value ρ)) := by
  obtain ⟨r, h1, -, -, h4⟩ := substitute_denotes_bind_partial hD he hv hs henv ts hin
  refine ⟨r, h1, fun ρ => ?_⟩
  unfold Scalar.value
  rw [h4, eval_bind₁]
  congr 2
  funext i
  unfold substFor Function.update
  by_cases h : i = v.id
  · subst h; simp
  · simp [h]

theorem hasTerm_in {D : Set (ℕ →₀ ℕ)} {e : Scalar R} (he : e.Canon) (te : e.TermsIn D)
    (h0 : (0 : ℕ →₀ ℕ) ∈ D) {d : ℕ →₀ ℕ} (hd : e.HasTerm d) : d ∈ D := by
  have key : ∀ m : Mono R, m.Canon → (m.vars = [] ∨ m.degs ∈ D) → m.degs ∈ D := by
    rintro m hm (h | h)
    · rw [hm.degs_eq_zero.mpr h]; exact h0
    · exact h
  cases e with
  | k c => exact hd.elim
  | var v => exact (show d = _ from hd) ▸ te
  | mono m => exact (show d = _ from hd) ▸ key m he te
  | poly p =>
    obtain ⟨m, hm, rfl⟩ := hd
    exact key m (Poly.Canon.all he m hm) (te m hm)

/-- C12, no side condition on the terms: affine expressions into expressions of degree at most two
(change of variables in a quadratic program). -/
theorem substitute_affine_into_quadratic {e s : Scalar R} {v : Var R} (he : e.Canon) (hv : v.OK)
    (hs : s.Canon) (henv : SameEnv v e) (te : e.TermsIn (degLE 2)) (ts : s.TermsIn (degLE 1)) :
    ∃ r, e.substitute v s = .ok r ∧ r.Canon ∧ r.TermsIn (degLE 2) ∧
      r.den = bind₁ (substFor v s) e.den := by
  refine substitute_denotes_bind_partial rearrFree_degLE_two he hv hs henv ts ?_
  intro d hd
  refine substTerms_degLE (a := 1) (b := 2) ?_ (hasTerm_in he te (by simp [degLE]) hd)
  intro i
  unfold substTermsFor
  split
  · exact subset_rfl
  · rintro x rfl
    simp [degLE]

/-- C12, no side condition on the terms: expressions of degree at most two into affine ones. -/
theorem substitute_quadratic_into_affine {e s : Scalar R} {v : Var R} (he : e.Canon) (hv : v.OK)
    (hs : s.Canon) (henv : SameEnv v e) (te : e.TermsIn (degLE 1)) (ts : s.TermsIn (degLE 2)) :
    ∃ r, e.substitute v s = .ok r ∧ r.Canon ∧ r.TermsIn (degLE 2) ∧
      r.den = bind₁ (substFor v s) e.den := by
  refine substitute_denotes_bind_partial rearrFree_degLE_two he hv hs henv ts ?_
  intro d hd
  refine substTerms_degLE (a := 2) (b := 1) ?_ (hasTerm_in he te (by simp [degLE]) hd)
  intro i
  unfold substTermsFor
  split
  · exact subset_rfl
  · rintro x rfl
    simp [degLE]

/-- C12, no side condition on the degree: a univariate expression into a univariate one. -/
theorem substitute_univariate {e s : Scalar R} {v : Var R} {x : ℕ} (he : e.Canon) (hv : v.OK)
    (hs : s.Canon) (henv : SameEnv v e) (te : e.TermsIn (univ1 v.id)) (ts : s.TermsIn (univ1 x)) :
    ∃ r, e.substitute v s = .ok r ∧ r.Canon ∧ r.TermsIn (univ1 x) ∧
      r.den = bind₁ (substFor v s) e.den := by
  refine substitute_denotes_bind_partial (rearrFree_univ1 x) he hv hs henv ts ?_
  intro d hd
  refine substTerms_univ1 ?_
  intro i hi
  have hd' := hasTerm_in he te (by simp [univ1]) hd
  have : i = v.id := Finset.mem_singleton.mp (hd' hi)
  unfold substTermsFor
  rw [if_pos this]

/-- C12, no side condition: fixing a variable of a multilinear expression to a constant. -/
theorem substitute_const_multilinear {e : Scalar R} {v : Var R} {c : R} (he : e.Canon) (hv : v.OK)
    (henv : SameEnv v e) (te : e.TermsIn multilin) :
    ∃ r, e.substitute v (.k c) = .ok r ∧ r.Canon ∧ r.TermsIn multilin ∧
      r.den = bind₁ (fun i => if i = v.id then C c else X i) e.den := by
  refine substitute_denotes_bind_partial (T := ∅) (s := .k c) rearrFree_multilin he hv trivial henv
    trivial ?_
  intro d hd
  refine (substTerms_const ?_ d).trans ?_
  · intro i
    unfold substTermsFor
    split
    · exact Set.empty_subset _
    · exact subset_rfl
  · intro d' hd' i
    exact (hd' i).trans (hasTerm_in he te (by simp [multilin]) hd i)

/-- C12, no side condition on the terms: a constant, variable or monomial into a constant, variable
or monomial. -/
theorem substitute_nonpoly {e s : Scalar R} {v : Var R} (he : e.Canon) (hv : v.OK) (hs : s.Canon)
    (henv : SameEnv v e) (ne : ∀ p, e ≠ .poly p) (ns : ∀ p, s ≠ .poly p) :
    ∃ r, e.substitute v s = .ok r ∧ r.Canon ∧ (∀ p, r ≠ .poly p) ∧
      r.den = bind₁ (substFor v s) e.den := by
  have hsc : s.check = .ok () := (good_of_univ hs).check
  have hvar : ∀ w : Var R, w.OK → (w.id = v.id → w.env = v.env) → Go.Ok (w.substitute v s)
      (NonPolyDen (substFor v s w.id)) := by
    intro w hw hwe
    rw [var_substitute_eq hw hv hsc]
    refine ⟨_, rfl, ?_⟩
    unfold substFor
    by_cases h : w.id = v.id
    · rw [if_pos (And.intro h (hwe h)), if_pos h]
      exact ⟨hs, ns, rfl⟩
    · rw [if_neg (show ¬ (w.id = v.id ∧ w.env = v.env) from fun hc => h hc.1), if_neg h]
      exact ⟨hw, by simp, rfl⟩
  cases e with
  | k c => exact ⟨_, rfl, trivial, by simp, by simp⟩
  | var w =>
    obtain ⟨r, h1, h2, h3, h4⟩ := hvar w he (henv w rfl)
    exact ⟨r, h1, h2, h3, by rw [h4]; simp⟩
  | mono m =>
    have hm : m.Canon := he
    show ∃ r, m.substitute v s = .ok r ∧ _
    rw [mono_substitute_eq hm hv hsc, Scalar.den_mono, bind₁_mono]
    split
    · exact subFold_nonpoly hm (fun w hw => hvar w (hm.ok w hw) (henv w hw)) _
    · next hno =>
      refine ⟨_, rfl, hm, by simp, ?_⟩
      rw [Scalar.den_mono, Mono.den_eq_prod]
      congr 2
      apply List.map_congr_left
      rintro ⟨w, e⟩ hwe
      have : w.id ≠ v.id := fun hc =>
        hno (hc ▸ List.mem_map.mpr ⟨w, (List.of_mem_zip hwe).1, rfl⟩)
      simp [substFor, this]
  | poly p => exact absurd rfl (ne p)

/-! ## C13 -/

section
omit [Field R] [LinearOrder R]
variable [GoNum R]

theorem checkSubMap_ok {sm : SubMap R} (h : ∀ kv ∈ sm, kv.1.OK ∧ kv.2.Canon) :
    checkSubMap sm = .ok () := by
  unfold checkSubMap
  apply Go.forM_ok
  intro kv hkv
  rw [(h kv hkv).1.check, Go.ok_bind]
  exact (good_of_univ (h kv hkv).2).check

theorem var_substMap_eq {w : Var R} (hw : w.OK) {sm : SubMap R}
    (h : ∀ kv ∈ sm, kv.1.OK ∧ kv.2.Canon) :
    w.substMap sm = .ok ((sm.lookup w).getD (.var w)) := by
  unfold Var.substMap
  rw [hw.check, checkSubMap_ok h, Go.ok_bind, Go.ok_bind]
  cases sm.lookup w <;> rfl

theorem mono_substMap_eq {m : Mono R} (hm : m.Canon) {sm : SubMap R}
    (h : ∀ kv ∈ sm, kv.1.OK ∧ kv.2.Canon) :
    m.substMap sm =
      (m.vars.zip m.exps).foldlM (subStep (fun w => w.substMap sm)) (.k m.coeff) := by
  unfold Mono.substMap
  rw [hm.check, checkSubMap_ok h, Go.ok_bind, Go.ok_bind]
  rfl

theorem lookup_mem {sm : SubMap R} {w : Var R} {s : Scalar R}
    (h : sm.lookup w = some s) : ∃ k, (k, s) ∈ sm := by
  unfold SubMap.lookup at h
  obtain ⟨kv, h1, rfl⟩ := Option.map_eq_some_iff.mp h
  exact ⟨kv.1, List.mem_of_find?_eq_some h1⟩

/-- C13, C43: `SubstituteAccordingTo` with well-formed operands does not panic and its result is
well formed (every number type). -/
theorem substMap_total {e : Scalar R} {sm : SubMap R} (he : e.Canon)
    (hsm : ∀ kv ∈ sm, kv.1.OK ∧ kv.2.Canon) : ∃ r, e.substMap sm = .ok r ∧ r.Canon := by
  suffices h : Go.Ok (e.substMap sm) (Good (fun _ => True) Set.univ) by
    obtain ⟨r, h1, h2⟩ := h
    rw [good_iff] at h2
    exact ⟨r, h1, h2.1⟩
  have hvar : ∀ w : Var R, w.OK → Go.Ok (w.substMap sm) (Good (fun _ => True) Set.univ) := by
    intro w hw
    rw [var_substMap_eq hw hsm]
    refine ⟨_, rfl, ?_⟩
    cases h : sm.lookup w with
    | none => exact ⟨hw, trivial, trivial⟩
    | some s =>
      obtain ⟨k, hk⟩ := lookup_mem h
      exact good_of_univ (hsm _ hk).2
  have hmono : ∀ m : Mono R, m.Canon →
      Go.Ok (m.substMap sm) (Good (fun _ => True) Set.univ) := by
    intro m hm
    rw [mono_substMap_eq hm hsm]
    exact subFold_good hm (fun w hw => hvar w (hm.ok w hw)) _
  cases e with
  | k c => exact ⟨_, rfl, trivial⟩
  | var w => exact hvar w he
  | mono m => exact hmono m he
  | poly p =>
    have hp : p.Canon := he
    show Go.Ok (p.substMap sm) _
    unfold Poly.substMap
    rw [show p.check = .ok () from Good.check (s := .poly p) (good_of_univ (s := .poly p) hp), checkSubMap_ok hsm, Go.ok_bind,
      Go.ok_bind]
    exact sumFold_good (fun m hm => hmono m (hp.all m hm))

end

theorem keyEq_iff {a b : Var R} : a.keyEq b = true ↔ a = b := by
  unfold Var.keyEq
  rcases a with ⟨a1, a2, a3, a4, a5, a6⟩
  rcases b with ⟨b1, b2, b3, b4, b5, b6⟩
  simp only [gn_feq, Bool.and_eq_true, decide_eq_true_eq, Var.mk.injEq]
  tauto

theorem lookup_iff {sm : SubMap R} (hk : (sm.map (·.1)).Nodup) {w : Var R} {s : Scalar R} :
    sm.lookup w = some s ↔ (w, s) ∈ sm := by
  unfold SubMap.lookup
  induction sm with
  | nil => simp
  | cons kv sm ih =>
    rw [List.map_cons, List.nodup_cons] at hk
    by_cases h : w = kv.1
    · rw [List.find?_cons_of_pos (p := fun (kv : Var R × Scalar R) => w.keyEq kv.1) (keyEq_iff.mpr h), Option.map_some, Option.some.injEq]
      constructor
      · rintro rfl
        subst h
        exact List.mem_cons_self ..
      · intro hm
        rcases List.mem_cons.mp hm with hm | hm
        · rw [← hm]
        · exact absurd (List.mem_map.mpr ⟨_, hm, h⟩) hk.1
    · rw [List.find?_cons_of_neg (p := fun (kv : Var R × Scalar R) => w.keyEq kv.1) (fun hc => h (keyEq_iff.mp hc)), ih hk.2, List.mem_cons]
      constructor
      · exact Or.inr
      · rintro (hm | hm)
        · exact absurd (congrArg Prod.fst hm) h
        · exact hm

/-- `φ` describes the replacement made by the map `sm` for the variables of `e`: the mapped
polynomial for a mapped variable, the variable itself for every other. -/
def Describes (sm : SubMap R) (e : Scalar R) (φ : ℕ → MvPolynomial ℕ R) : Prop :=
  ∀ w, e.Mentions w → (∀ s, (w, s) ∈ sm → φ w.id = s.den) ∧
    ((∀ s, (w, s) ∉ sm) → φ w.id = X w.id)

/-- `T` bounds the exponent vectors of the replacements. -/
def BoundsTerms (sm : SubMap R) (e : Scalar R) (T : ℕ → Set (ℕ →₀ ℕ)) : Prop :=
  ∀ w, e.Mentions w → (∀ s, (w, s) ∈ sm → s.TermsIn (T w.id)) ∧
    ((∀ s, (w, s) ∉ sm) → Finsupp.single w.id 1 ∈ T w.id)

/-- C13: `SubstituteAccordingTo` replaces all mapped variables simultaneously, whatever the order of
the map, when all exponent vectors that can appear are in a rearrangement-free set.  Missing: other
terms (`substMap_false`). -/
theorem substMap_denotes_bind_partial {D : Set (ℕ →₀ ℕ)} {T : ℕ → Set (ℕ →₀ ℕ)} {e : Scalar R}
    {sm : SubMap R} {φ : ℕ → MvPolynomial ℕ R} (hD : RearrFree D) (he : e.Canon)
    (hsm : ∀ kv ∈ sm, kv.1.OK ∧ kv.2.Canon) (hk : (sm.map (·.1)).Nodup)
    (hφ : Describes sm e φ) (hT : BoundsTerms sm e T)
    (hin : ∀ d, e.HasTerm d → SubstTerms T d ⊆ D) :
    ∃ r, e.substMap sm = .ok r ∧ r.Canon ∧ r.TermsIn D ∧ r.den = bind₁ φ e.den := by
  have hvar : ∀ w : Var R, w.OK → e.Mentions w →
      Go.Ok (w.substMap sm) (GoodDen (fun _ => True) (T w.id) (φ w.id)) := by
    intro w hw hm
    rw [var_substMap_eq hw hsm]
    refine ⟨_, rfl, ?_⟩
    cases h : sm.lookup w with
    | none =>
      have hno : ∀ s, (w, s) ∉ sm := by
        intro s hs
        rw [(lookup_iff hk).mpr hs] at h
        cases h
      exact ⟨⟨hw, trivial, (hT w hm).2 hno⟩, ((hφ w hm).2 hno).symm⟩
    | some s =>
      have hs := (lookup_iff hk).mp h
      exact ⟨good_of (hsm _ hs).2 ((hT w hm).1 s hs), ((hφ w hm).1 s hs).symm⟩
  have hmono : ∀ m : Mono R, m.Canon → (∀ w ∈ m.vars, e.Mentions w) →
      SubstTerms T m.degs ⊆ D →
      Go.Ok (m.substMap sm) (GoodDen (fun _ => True) D (bind₁ φ m.den)) := by
    intro m hm hme hmD
    have hP : PSet T (m.vars.zip m.exps) ⊆ D := (PSet_subst _ hm).trans hmD
    rw [mono_substMap_eq hm hsm, bind₁_mono]
    refine (subFold_den hm (fun w hw => hvar w (hm.ok w hw) (hme w hw)) (hD.mono hP) _).mono ?_
    exact fun r hr => ⟨hr.1.weaken (fun _ h => h) hP, hr.2⟩
  have fin : ∀ x : Go (Scalar R), Go.Ok x (GoodDen (fun _ => True) D (bind₁ φ e.den)) →
      ∃ r, x = .ok r ∧ r.Canon ∧ r.TermsIn D ∧ r.den = bind₁ φ e.den := by
    rintro x ⟨r, h1, h2, h3⟩
    rw [good_iff] at h2
    exact ⟨r, h1, h2.1, h2.2.1, h3⟩
  apply fin
  cases e with
  | k c => exact ⟨_, rfl, trivial, by simp⟩
  | var w =>
    refine (hvar w he rfl).mono ?_
    rintro r ⟨h1, h2⟩
    refine ⟨h1.weaken (fun _ h => h) ?_, by rw [h2]; simp⟩
    intro d hd
    apply hin _ rfl
    refine ⟨fun _ => d, ?_, ?_⟩
    · intro i hi
      rw [Finsupp.support_single _ one_ne_zero, Finset.mem_singleton] at hi
      subst hi
      exact ⟨[d], by simp, by simpa using hd, by simp⟩
    · rw [Finsupp.support_single _ one_ne_zero, Finset.sum_singleton]
  | mono m => exact hmono m he (fun w hw => hw) (hin _ rfl)
  | poly p =>
    have hp : p.Canon := he
    show Go.Ok (p.substMap sm) _
    unfold Poly.substMap
    rw [show p.check = .ok () from Good.check (s := .poly p) (good_of_univ (s := .poly p) hp), checkSubMap_ok hsm, Go.ok_bind,
      Go.ok_bind]
    exact sumFold_den hD (fun m hm => hmono m (hp.all m hm) (fun w hw => ⟨m, hm, hw⟩)
      (hin _ ⟨m, hm, rfl⟩))

/-- C13, no side condition on the terms: affine expressions for any number of variables of an
expression of degree at most two, simultaneously. -/
theorem substMap_affine_into_quadratic {e : Scalar R} {sm : SubMap R} {φ : ℕ → MvPolynomial ℕ R}
    (he : e.Canon) (hsm : ∀ kv ∈ sm, kv.1.OK ∧ kv.2.Canon) (hk : (sm.map (·.1)).Nodup)
    (hφ : Describes sm e φ) (te : e.TermsIn (degLE 2)) (ts : ∀ kv ∈ sm, kv.2.TermsIn (degLE 1)) :
    ∃ r, e.substMap sm = .ok r ∧ r.Canon ∧ r.TermsIn (degLE 2) ∧ r.den = bind₁ φ e.den := by
  refine substMap_denotes_bind_partial (T := fun _ => degLE 1) rearrFree_degLE_two he hsm hk hφ ?_ ?_
  · intro w _
    exact ⟨fun s hs => ts _ hs, fun _ => by simp [degLE]⟩
  · intro d hd
    exact substTerms_degLE (a := 1) (b := 2) (fun _ => subset_rfl)
      (hasTerm_in he te (by simp [degLE]) hd)

/-- C13 at the level of values. -/
theorem substMap_value_affine {e : Scalar R} {sm : SubMap R} {φ : ℕ → MvPolynomial ℕ R}
    (he : e.Canon) (hsm : ∀ kv ∈ sm, kv.1.OK ∧ kv.2.Canon) (hk : (sm.map (·.1)).Nodup)
    (hφ : Describes sm e φ) (te : e.TermsIn (degLE 2)) (ts : ∀ kv ∈ sm, kv.2.TermsIn (degLE 1)) :
    ∃ r, e.substMap sm = .ok r ∧ ∀ ρ, r.value ρ = e.value (fun i => eval ρ (φ i)) := by
  obtain ⟨r, h1, -, -, h4⟩ := substMap_affine_into_quadratic he hsm hk hφ te ts
  exact ⟨r, h1, fun ρ => by unfold Scalar.value; rw [h4, eval_bind₁]⟩

/-- C13, no side condition on the terms: constants, variables and monomials for the variables of a
constant, variable or monomial. -/
theorem substMap_nonpoly {e : Scalar R} {sm : SubMap R} {φ : ℕ → MvPolynomial ℕ R}
    (he : e.Canon) (hsm : ∀ kv ∈ sm, kv.1.OK ∧ kv.2.Canon) (hk : (sm.map (·.1)).Nodup)
    (hφ : Describes sm e φ) (ne : ∀ p, e ≠ .poly p) (ns : ∀ kv ∈ sm, ∀ p, kv.2 ≠ .poly p) :
    ∃ r, e.substMap sm = .ok r ∧ r.Canon ∧ r.den = bind₁ φ e.den := by
  have hvar : ∀ w : Var R, w.OK → e.Mentions w →
      Go.Ok (w.substMap sm) (NonPolyDen (φ w.id)) := by
    intro w hw hm
    rw [var_substMap_eq hw hsm]
    refine ⟨_, rfl, ?_⟩
    cases h : sm.lookup w with
    | none =>
      have hno : ∀ s, (w, s) ∉ sm := by
        intro s hs
        rw [(lookup_iff hk).mpr hs] at h
        cases h
      exact ⟨hw, by simp, ((hφ w hm).2 hno).symm⟩
    | some s =>
      have hs := (lookup_iff hk).mp h
      exact ⟨(hsm _ hs).2, ns _ hs, ((hφ w hm).1 s hs).symm⟩
  cases e with
  | k c => exact ⟨_, rfl, trivial, by simp⟩
  | var w =>
    obtain ⟨r, h1, h2, h3, h4⟩ := hvar w he rfl
    exact ⟨r, h1, h2, by rw [h4]; simp⟩
  | mono m =>
    have hm : m.Canon := he
    show ∃ r, m.substMap sm = .ok r ∧ _
    rw [mono_substMap_eq hm hsm, Scalar.den_mono, bind₁_mono]
    obtain ⟨r, h1, h2, h3, h4⟩ := subFold_nonpoly hm (fun w hw => hvar w (hm.ok w hw) hw) m.coeff
    exact ⟨r, h1, h2, h4⟩
  | poly p => exact absurd rfl (ne p)

private theorem powLoop_k (c : R) (n : ℕ) (a : R) :
    powLoop (.k c) n (.k a) = .ok (.k (a * c ^ n)) := by
  induction n generalizing a with
  | zero => simp [powLoop, Go.pure_eq]
  | succ n ih =>
    rw [powLoop, show (Scalar.k a).mul (.k c) = .ok (.k (a * c)) from rfl, Go.ok_bind, ih, pow_succ',
      mul_assoc]

private theorem power_k (c : R) {n : Int} (hn : 0 ≤ n) :
    (Scalar.k c).power n = .ok (.k (c ^ n.toNat)) := by
  unfold Scalar.power
  have : ¬ n < 0 := by omega
  rw [show (Scalar.k c).check = .ok () from rfl, Go.ok_bind, if_neg this, gn_one, powLoop_k, one_mul]

/-- C13: with a map of constants for all variables, `SubstituteAccordingTo` returns the constant
obtained by evaluating the expression.  No condition on the terms. -/
theorem substMap_evaluates {e : Scalar R} {sm : SubMap R} {ρ : ℕ → R} (he : e.Canon)
    (hsm : ∀ kv ∈ sm, kv.1.OK ∧ kv.2.Canon) (hk : (sm.map (·.1)).Nodup)
    (hall : ∀ w, e.Mentions w → (w, Scalar.k (ρ w.id)) ∈ sm) :
    e.substMap sm = .ok (.k (e.value ρ)) := by
  have hvar : ∀ w : Var R, w.OK → e.Mentions w → w.substMap sm = .ok (.k (ρ w.id)) := by
    intro w hw hm
    rw [var_substMap_eq hw hsm, (lookup_iff hk).mpr (hall w hm), Option.getD_some]
  have hmono : ∀ m : Mono R, m.Canon → (∀ w ∈ m.vars, e.Mentions w) →
      m.substMap sm = .ok (.k (eval ρ m.den)) := by
    intro m hm hme
    rw [mono_substMap_eq hm hsm]
    obtain ⟨r, h1, h2⟩ := Go.foldlM_ok' (subStep (fun w => w.substMap sm))
      (fun pre r => r = .k (m.coeff * (pre.map (fun ve => ρ ve.1.id ^ ve.2.toNat)).prod))
      (m.vars.zip m.exps) (.k m.coeff) (by simp) (by
        rintro pre ⟨v, x⟩ acc ⟨post, hpost⟩ rfl
        have hve : (v, x) ∈ m.vars.zip m.exps := by rw [hpost]; simp
        have hx : 0 ≤ x := (hm.pos x (List.of_mem_zip hve).2).le
        have hv := (List.of_mem_zip hve).1
        unfold subStep
        simp only
        rw [hvar v (hm.ok v hv) (hme v hv), Go.ok_bind, power_k _ hx, Go.ok_bind]
        refine ⟨_, rfl, ?_⟩
        rw [List.map_append, List.prod_append]
        simp [mul_assoc])
    rw [h1, h2, Mono.den_eq_prod, map_mul, eval_C, map_list_prod, List.map_map]
    congr 5
    funext ve
    simp
  cases e with
  | k c => simp [Scalar.substMap, Scalar.value, Go.pure_eq]
  | var w =>
    have := hvar w he rfl
    simpa [Scalar.substMap, Scalar.value] using this
  | mono m => exact hmono m he (fun w hw => hw)
  | poly p =>
    have hp : p.Canon := he
    show p.substMap sm = _
    unfold Poly.substMap
    rw [show p.check = .ok () from Good.check (s := .poly p) (good_of_univ (s := .poly p) hp), checkSubMap_ok hsm, Go.ok_bind,
      Go.ok_bind]
    obtain ⟨r, h1, h2⟩ := Go.foldlM_ok' (fun (acc : Scalar R) m => do
      let t ← m.substMap sm
      acc.plus t) (fun pre (r : Scalar R) => r = .k (eval ρ (lden pre))) p.monos (.k 0) (by simp) (by
        rintro pre m acc ⟨post, hpost⟩ rfl
        have hm : m ∈ p.monos := by rw [hpost]; simp
        rw [hmono m (hp.all m hm) (fun w hw => ⟨m, hm, hw⟩), Go.ok_bind]
        exact ⟨_, rfl, by simp⟩)
    exact h1.trans (by rw [h2]; rfl)

end Value

/-! ## Counterexamples and concrete cases -/

/-- C12 is false in general: `x^3` with `x := x + y` is collected wrongly. -/
theorem substitute_false :
    ¬ ∀ (e s : Scalar ℚ) (v : Var ℚ), e.Canon → v.OK → s.Canon → SameEnv v e →
      ∃ r, e.substitute v s = .ok r ∧ r.den = bind₁ (substFor v s) e.den := by
  intro h
  obtain ⟨r, h1, h2⟩ := h (.mono (wm1 1 0 3)) (.poly ⟨[wm1 1 0 1, wm1 1 1 1]⟩) wx
    (wm1_canon _ _ (by decide)) (wv_ok 0) ⟨by simp, by
      intro m hm
      simp only [List.mem_cons, List.not_mem_nil, or_false] at hm
      rcases hm with rfl | rfl <;> exact wm1_canon _ _ (by decide)⟩ (by
      intro w hw _
      simp only [Scalar.Mentions, wm1, List.mem_singleton] at hw
      rw [hw])
  have hr : (Scalar.mono (wm1 1 0 3)).substitute wx (.poly ⟨[wm1 1 0 1, wm1 1 1 1]⟩) =
      .ok (.poly ⟨[wm1 1 0 3, wm2 2 1 0 1 2, wm2 4 1 0 2 1, wm1 1 1 3]⟩) := by decide +kernel
  rw [hr, Except.ok.injEq] at h1
  subst h1
  have h3 := congrArg (eval wρ) h2
  rw [eval_bind₁] at h3
  simp only [Scalar.den_mono, Scalar.den_poly, lden_cons, lden_nil, wm1_den, wm2_den, substFor,
    map_add, map_mul, map_pow, eval_C, eval_X, map_zero] at h3
  norm_num [wρ, Int.toNat, wm1_den, wv] at h3

/-- C12 with variables of two environments: `Substitute` compares environments, arithmetic does not.
Here `x` of another environment denotes the same indeterminate but is not replaced. -/
theorem substitute_env_false :
    ¬ ∀ (e s : Scalar ℚ) (v : Var ℚ), e.Canon → v.OK → s.Canon →
      ∃ r, e.substitute v s = .ok r ∧ r.den = bind₁ (substFor v s) e.den := by
  intro h
  obtain ⟨r, h1, h2⟩ := h (.var { wx with env := 1 }) (.k 5) wx (wv_ok 0) (wv_ok 0) trivial
  have hr : (Scalar.var { wx with env := 1 }).substitute wx (.k 5) =
      .ok (.var { wx with env := 1 }) := by decide +kernel
  rw [hr, Except.ok.injEq] at h1
  subst h1
  have h3 := congrArg (eval wρ) h2
  rw [eval_bind₁] at h3
  norm_num [substFor, wρ, wv] at h3

/-- C13 is false in general, for the same reason as C12. -/
theorem substMap_false :
    ¬ ∀ (e : Scalar ℚ) (sm : SubMap ℚ) (φ : ℕ → MvPolynomial ℕ ℚ), e.Canon →
      (∀ kv ∈ sm, kv.1.OK ∧ kv.2.Canon) → (sm.map (·.1)).Nodup → Describes sm e φ →
      ∃ r, e.substMap sm = .ok r ∧ r.den = bind₁ φ e.den := by
  intro h
  have hc : (Scalar.poly ⟨[wm1 1 0 1, wm1 1 1 1]⟩ : Scalar ℚ).Canon := ⟨by simp, by
      intro m hm
      simp only [List.mem_cons, List.not_mem_nil, or_false] at hm
      rcases hm with rfl | rfl <;> exact wm1_canon _ _ (by decide)⟩
  obtain ⟨r, h1, h2⟩ := h (.mono (wm1 1 0 3)) [(wx, .poly ⟨[wm1 1 0 1, wm1 1 1 1]⟩)]
    (substFor wx (.poly ⟨[wm1 1 0 1, wm1 1 1 1]⟩))
    (wm1_canon _ _ (by decide)) (by
      intro kv hkv
      rw [List.mem_singleton] at hkv
      subst hkv
      exact ⟨wv_ok 0, hc⟩) (by simp) (by
      intro w hw
      simp only [Scalar.Mentions, wm1, List.mem_singleton] at hw
      subst hw
      refine ⟨?_, ?_⟩
      · intro s hs
        simp only [List.mem_singleton, Prod.mk.injEq] at hs
        rw [hs.2]
        simp [substFor]
      · intro hno
        exact absurd (by simp) (hno (.poly ⟨[wm1 1 0 1, wm1 1 1 1]⟩)))
  have hr : (Scalar.mono (wm1 1 0 3)).substMap [(wx, .poly ⟨[wm1 1 0 1, wm1 1 1 1]⟩)] =
      .ok (.poly ⟨[wm1 1 0 3, wm2 2 1 0 1 2, wm2 4 1 0 2 1, wm1 1 1 3]⟩) := by decide +kernel
  rw [hr, Except.ok.injEq] at h1
  subst h1
  have h3 := congrArg (eval wρ) h2
  rw [eval_bind₁] at h3
  simp only [Scalar.den_mono, Scalar.den_poly, lden_cons, lden_nil, wm1_den, wm2_den, substFor,
    map_add, map_mul, map_pow, eval_C, eval_X, map_zero] at h3
  norm_num [wρ, Int.toNat, wm1_den, wv] at h3

/-- C13: a map key that differs from the variable only in its name does not match, although
`Substitute` and arithmetic treat the two as the same variable. -/
theorem substMap_key_identity :
    (Scalar.var wx).substMap [({ wx with name := "renamed" }, .k 5)] = .ok (.var wx) ∧
    (Scalar.var wx).substitute { wx with name := "renamed" } (.k 5) = .ok (.k 5) ∧
    (Scalar.var wx).minus (.var { wx with name := "renamed" }) = .ok (.k (0 : ℚ)) := by
  decide +kernel

/-- Swapping `x` and `y` in `3*x*y^2 + x + 1` is simultaneous. -/
example : (Scalar.poly ⟨[wm2 3 0 1 1 2, wm1 1 0 1, wm0 1]⟩).substMap [(wx, .var wy), (wy, .var wx)] =
    .ok (.poly ⟨[wm0 1, wm2 3 1 0 1 2, wm1 1 1 1]⟩) := by decide +kernel
/-- Evaluation of `3*x*y^2 + x + 1` at `x = 2`, `y = 5`. -/
example : (Scalar.poly ⟨[wm2 3 0 1 1 2, wm1 1 0 1, wm0 1]⟩).substMap [(wx, .k 2), (wy, .k 5)] =
    .ok (.k 153) := by decide +kernel
/-- `x := 2x + y` in `x^2 + x*y`. -/
example : (Scalar.poly ⟨[wm1 1 0 2, wm2 1 0 1 1 1]⟩).substitute wx (.poly ⟨[wm1 2 0 1, wm1 1 1 1]⟩) =
    .ok (.poly ⟨[wm1 4 0 2, wm2 6 1 0 1 1, wm1 2 1 2]⟩) := by decide +kernel
example : Describes ([(wx, .var wy), (wy, .var wx)] : SubMap ℚ) (.var wx) (fun i => X (1 - i)) := by
  intro w hw
  rw [show w = wx from hw]
  refine ⟨?_, ?_⟩
  · intro s hs
    simp only [List.mem_cons, Prod.mk.injEq, true_and, List.not_mem_nil, or_false, wv] at hs
    rcases hs with rfl | ⟨h, -⟩
    · rfl
    · exact absurd h (by simp)
  · intro h
    exact absurd (by simp) (h (.var wy))

end Verif
