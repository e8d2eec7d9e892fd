import Verif.Lemmas.Struct

/-!
# Value lemmas for simplification and addition (exact arithmetic)
-/

set_option linter.unusedSectionVars false

namespace Verif

open MvPolynomial

variable {R : Type} [Field R] [LinearOrder R]

@[simp] theorem gn_zero : (GoNum.zero : R) = 0 := rfl
@[simp] theorem gn_one : (GoNum.one : R) = 1 := rfl
@[simp] theorem gn_add (a b : R) : GoNum.add a b = a + b := rfl
@[simp] theorem gn_mul (a b : R) : GoNum.mul a b = a * b := rfl
@[simp] theorem gn_sub (a b : R) : GoNum.sub a b = a - b := rfl
@[simp] theorem gn_div (a b : R) : GoNum.div a b = a / b := rfl
@[simp] theorem gn_neg (a : R) : GoNum.neg a = -a := rfl
@[simp] theorem gn_ofInt (n : Int) : (GoNum.ofInt n : R) = (n : R) := rfl
@[simp] theorem gn_feq (a b : R) : GoNum.feq a b = decide (a = b) := rfl
@[simp] theorem gn_lt (a b : R) : GoNum.lt a b = decide (a < b) := rfl
@[simp] theorem gn_le (a b : R) : GoNum.le a b = decide (a ≤ b) := rfl

/-- The sum of the terms of a list of monomials. -/
noncomputable def lden (l : List (Mono R)) : MvPolynomial ℕ R := (l.map Mono.den).sum

@[simp] theorem lden_nil : lden ([] : List (Mono R)) = 0 := rfl
@[simp] theorem lden_cons (m : Mono R) (l) : lden (m :: l) = m.den + lden l := by simp [lden]
@[simp] theorem lden_append (l l' : List (Mono R)) : lden (l ++ l') = lden l + lden l' := by
  simp [lden]

theorem Poly.den_eq (p : Poly R) : p.den = lden p.monos := rfl

@[simp] theorem Scalar.den_k (c : R) : (Scalar.k c).den = C c := rfl
@[simp] theorem Scalar.den_var (v : Var R) : (Scalar.var v).den = X v.id := rfl
@[simp] theorem Scalar.den_mono (m : Mono R) : (Scalar.mono m).den = m.den := rfl
@[simp] theorem Scalar.den_poly (p : Poly R) : (Scalar.poly p).den = lden p.monos := rfl

theorem Mono.den_of_vars_nil {m : Mono R} (h : m.vars = []) : m.den = C m.coeff := by
  unfold Mono.den Mono.degs
  rw [h]
  simp

@[simp] theorem kToMono_den (c : R) : (kToMono c).den = C c := Mono.den_of_vars_nil rfl

theorem den_one_var (c : R) (v : Var R) : (Mono.den ⟨c, [1], [v]⟩) = C c * X v.id := by
  rw [Mono.den_eq_prod]; simp

@[simp] theorem Var.toMono_den (v : Var R) : v.toMono.den = X v.id := by
  unfold Var.toMono
  rw [den_one_var]
  simp

theorem Mono.den_zero {m : Mono R} (h : m.coeff = 0) : m.den = 0 := by
  unfold Mono.den; rw [h]; simp

theorem Mono.den_degs {m : Mono R} {d : ℕ →₀ ℕ} (h : m.degs = d) : m.den = monomial d m.coeff := by
  subst h; rfl

/-- Adding to the coefficient of a monomial adds a multiple of its exponent vector. -/
theorem Mono.den_add_coeff (m : Mono R) (c : R) :
    (Mono.den { m with coeff := m.coeff + c }) = m.den + monomial m.degs c := by
  unfold Mono.den
  show monomial m.degs (m.coeff + c) = _
  rw [map_add]

variable {P : Var R → Prop} {D : Set (ℕ →₀ ℕ)}

/-- In a rearrangement-free family, matching monomials have the same exponent vector. -/
theorem GoodM.degs_eq_of_matches (hD : RearrFree D) {m r : Mono R} (hm : GoodM P D m)
    (hr : GoodM P D r) (h : m.matchesFormOf r = .ok true) : m.degs = r.degs := by
  have hre := Mono.matches_rearr hm.canon hr.canon h
  rw [Mono.matches_ok hm.canon.len hr.canon.len] at h
  simp only [Except.ok.injEq, decide_eq_true_eq] at h
  rcases hm.degs with h1 | h1
  · have h2 : r.vars = [] := by
      rw [← List.length_eq_zero_iff, ← h.1, h1]; rfl
    rw [hm.canon.degs_eq_zero.mpr h1, hr.canon.degs_eq_zero.mpr h2]
  · rcases hr.degs with h2 | h2
    · have h3 : m.vars = [] := by
        rw [← List.length_eq_zero_iff, h.1, h2]; rfl
      rw [hm.canon.degs_eq_zero.mpr h3, hr.canon.degs_eq_zero.mpr h2]
    · exact hD _ h1 _ h2 hre

theorem insertMono_den (hD : RearrFree D) {m : Mono R} (hm : GoodM P D m) (es : List (Mono R))
    (hes : GoodL P D es) {out} (h : insertMono m es = .ok out) :
    lden out = m.den + lden es := by
  induction es generalizing out with
  | nil =>
    simp only [insertMono, Go.pure_eq, Except.ok.injEq] at h
    subst h; simp
  | cons e es ih =>
    have he := hes e (by simp)
    unfold insertMono at h
    obtain ⟨b, hb⟩ : ∃ b, e.matchesFormOf m = .ok b :=
      ⟨_, Mono.matches_ok he.canon.len hm.canon.len⟩
    rw [hb, Go.ok_bind] at h
    cases b with
    | true =>
      simp only [if_true, Go.pure_eq, Except.ok.injEq, gn_add] at h
      subst h
      rw [lden_cons, lden_cons, Mono.den_add_coeff, he.degs_eq_of_matches hD hm hb]
      show e.den + m.den + _ = _
      ring
    | false =>
      simp only [Bool.false_eq_true, if_false] at h
      obtain ⟨o, ho, h⟩ := Go.bind_eq_ok.mp h
      simp only [Go.pure_eq, Except.ok.injEq] at h
      subst h
      rw [lden_cons, lden_cons, ih (fun x hx => hes x (by simp [hx])) ho]
      ring

theorem simplifyFold_den (hD : RearrFree D) (l : List (Mono R)) (c : R) (nc : List (Mono R))
    (hl : GoodL P D l) (hnc : GoodL P D nc) (hv : ∀ m ∈ nc, m.vars ≠ []) {st}
    (h : l.foldlM simplifyStep (c, nc) = .ok st) :
    C st.1 + lden st.2 = lden l + C c + lden nc := by
  induction l generalizing c nc with
  | nil =>
    simp only [List.foldlM_nil, Go.pure_eq, Except.ok.injEq] at h
    subst h; simp
  | cons a l ih =>
    rw [List.foldlM_cons] at h
    obtain ⟨⟨c', nc'⟩, h1, h2⟩ := Go.bind_eq_ok.mp h
    have ha := hl a (by simp)
    have hg : GoodL P D nc' ∧ ∀ m ∈ nc', m.vars ≠ [] := by
      have := simplifyFold_ok (P := P) (D := D) [a] c nc
        (fun m hm => by rw [List.mem_singleton] at hm; exact hm ▸ ha) hnc hv
      simp only [List.foldlM_cons, List.foldlM_nil] at this
      rw [h1, Go.ok_bind, Go.pure_eq] at this
      obtain ⟨x, hx, hx2⟩ := this
      simp only [Except.ok.injEq] at hx
      subst hx
      exact hx2
    rw [ih c' nc' (fun m hm => hl m (by simp [hm])) hg.1 hg.2 h2, lden_cons]
    unfold simplifyStep at h1
    by_cases hc : a.isConstant
    · rw [if_pos hc] at h1
      simp only [Go.pure_eq, Except.ok.injEq, Prod.mk.injEq, gn_add] at h1
      obtain ⟨rfl, rfl⟩ := h1
      have : a.vars = [] := by simpa [Mono.isConstant] using hc
      rw [Mono.den_of_vars_nil this, map_add]
      ring
    · rw [if_neg hc] at h1
      obtain ⟨o, ho, h1⟩ := Go.bind_eq_ok.mp h1
      simp only [Go.pure_eq, Except.ok.injEq, Prod.mk.injEq] at h1
      obtain ⟨rfl, rfl⟩ := h1
      rw [insertMono_den hD ha nc hnc ho]
      ring

theorem lden_filter_ne_zero (l : List (Mono R)) :
    lden (l.filter (fun m => !GoNum.feq m.coeff GoNum.zero)) = lden l := by
  induction l with
  | nil => rfl
  | cons a l ih =>
    rw [List.filter_cons]
    by_cases h : a.coeff = 0
    · simp only [gn_feq, gn_zero, h, decide_true, Bool.not_true, Bool.false_eq_true, if_false,
        lden_cons, Mono.den_zero h, zero_add]
      simpa using ih
    · simp only [gn_feq, gn_zero, h, decide_false, Bool.not_false, if_true, lden_cons]
      rw [← ih]
      simp

theorem simplifyList_den (st : R × List (Mono R)) :
    lden (simplifyList st) = C st.1 + lden st.2 := by
  have h : lden (simplifyOut st) = C st.1 + lden st.2 := by
    unfold simplifyOut
    rw [lden_append, lden_filter_ne_zero]
    by_cases h : st.1 = 0 <;> simp [h]
  unfold simplifyList
  split
  · rename_i he
    rw [List.isEmpty_iff] at he
    rw [he] at h
    rw [← h]
    simp
  · exact h

theorem Poly.simplify_den (hD : RearrFree D) {p q : Poly R} (hne : p.monos ≠ [])
    (h : GoodL P D p.monos) (hq : p.simplify = .ok q) : lden q.monos = lden p.monos := by
  obtain ⟨st, hst, h1, -⟩ := simplifyFold_ok p.monos GoNum.zero [] h (by simp [GoodL]) (by simp)
  rw [Poly.simplify_eq (GoodL.check hne h) hst] at hq
  simp only [Except.ok.injEq] at hq
  subst hq
  rw [simplifyList_den, simplifyFold_den hD p.monos _ [] h (by simp [GoodL]) (by simp) hst]
  simp

theorem SimpResult.den {l : List (Mono R)} {r : Scalar R} (h : SimpResult l r) :
    r.den = lden l := by
  cases h with
  | const c h => simp [h]
  | var c v h hc =>
    have : c = 1 := by simpa using hc
    rw [h, lden_cons, den_one_var, this]
    simp
  | mono m h hv hn => simp [h]
  | poly h => rfl

/-- The postcondition used throughout: well formed, in the family, and with the given meaning. -/
def GoodDen (P : Var R → Prop) (D : Set (ℕ →₀ ℕ)) (f : MvPolynomial ℕ R) (s : Scalar R) : Prop :=
  Good P D s ∧ s.den = f

theorem Poly.asSimplified_den (hD : RearrFree D) {p : Poly R} (hne : p.monos ≠ [])
    (h : GoodL P D p.monos) : Go.Ok p.asSimplified (GoodDen P D (lden p.monos)) :=
  (Poly.asSimplified_ok hne h).mono (fun _ ⟨_, hq, _, hg, hr⟩ =>
    ⟨hr.good hg, by rw [hr.den, Poly.simplify_den hD hne h hq]⟩)

theorem Mono.asSimplified_den {m : Mono R} (hm : GoodM P D m) :
    Go.Ok m.asSimplified (GoodDen P D m.den) := by
  refine (Mono.asSimplified_good hm).and ?_
  intro r hr
  rw [Mono.asSimplified_eq hm.canon, Except.ok.injEq] at hr
  subst hr
  split
  · rename_i h; rw [Mono.den_of_vars_nil h]; rfl
  · split
    · rename_i h
      have : m.coeff = 0 := by simpa using h
      rw [Mono.den_zero this]; simp
    · split
      · rename_i hv _ h1
        rcases m with ⟨c, es, vs⟩
        simp only at hv h1 ⊢
        have hl := hm.canon.len
        rcases vs with _ | ⟨v, _ | ⟨w, vs⟩⟩
        · exact absurd rfl hv
        · have : c = 1 := by simpa using h1.1
          rw [h1.2, den_one_var, this]; simp
        · simp [h1.2] at hl
      · rfl

theorem Scalar.asSimplified_den (hD : RearrFree D) {s : Scalar R} {f} (h : GoodDen P D f s) :
    Go.Ok s.asSimplified (GoodDen P D f) := by
  obtain ⟨h, rfl⟩ := h
  cases s with
  | k c => exact Go.ok_pure ⟨trivial, rfl⟩
  | var v => exact Go.ok_pure ⟨h, rfl⟩
  | mono m => exact Mono.asSimplified_den h
  | poly p => exact Poly.asSimplified_den hD h.1 h.2

/-! ## Plus -/

theorem lden_modify {l : List (Mono R)} {i : ℕ} {m : Mono R} (h : l[i]? = some m) (c : R) :
    lden (l.modify i (fun m => { m with coeff := GoNum.add m.coeff c })) =
      lden l + monomial m.degs c := by
  induction l generalizing i with
  | nil => simp at h
  | cons a l ih =>
    cases i with
    | zero =>
      simp only [List.getElem?_cons_zero, Option.some.injEq] at h
      subst h
      simp only [List.modify_zero_cons, lden_cons, gn_add, Mono.den_add_coeff]
      ring
    | succ i =>
      simp only [List.getElem?_cons_succ] at h
      rw [List.modify_succ_cons, lden_cons, lden_cons, ih h]
      ring

theorem findIdx?_some_getElem {α : Type} {l : List α} {p : α → Bool} {i : ℕ}
    (h : l.findIdx? p = some i) : ∃ a, l[i]? = some a ∧ p a = true := by
  rw [List.findIdx?_eq_some_iff_getElem] at h
  obtain ⟨hi, hp, -⟩ := h
  exact ⟨l[i], List.getElem?_eq_getElem hi, hp⟩

theorem plusKList_den (l : List (Mono R)) (c : R) : lden (plusKList l c) = lden l + C c := by
  unfold plusKList
  split
  · simp
  · rename_i i hi
    obtain ⟨m, hm, hc⟩ := findIdx?_some_getElem hi
    rw [lden_modify hm]
    have : m.vars = [] := by simpa [Mono.isConstant] using hc
    have : m.degs = 0 := by unfold Mono.degs; rw [this]; simp
    rw [this]
    rfl

theorem plusVarList_den (l : List (Mono R)) (v : Var R) :
    lden (plusVarList l v) = lden l + X v.id := by
  unfold plusVarList
  split
  · simp
  · rename_i i hi
    obtain ⟨m, hm, hc⟩ := findIdx?_some_getElem hi
    rw [lden_modify hm]
    rw [decide_eq_true_eq] at hc
    have : m.degs = Finsupp.single v.id 1 := by
      rcases m with ⟨c, es, vs⟩
      simp only at hc
      rcases vs with _ | ⟨w, _ | ⟨w', vs⟩⟩
      · simp at hc
      · rw [hc.1, Var.degs_one]
        have : w.id = v.id := by simpa using hc.2
        rw [this]; rfl
      · simp at hc
    rw [this]
    rfl

theorem Poly.plusK_den (hD : RearrFree D) {p : Poly R} (h : Good P D (.poly p)) (c : R) :
    Go.Ok (p.plusK c) (GoodDen P D (lden p.monos + C c)) := by
  rw [Poly.plusK_eq (GoodL.check h.1 h.2)]
  obtain ⟨h1, h2⟩ := plusKList_good h.2 h.1 c
  rw [← plusKList_den]
  exact Poly.asSimplified_den hD h1 h2

theorem Poly.plusVar_den (hD : RearrFree D) {p : Poly R} (h : Good P D (.poly p)) {v : Var R}
    (hv : Good P D (.var v)) : Go.Ok (p.plusVar v) (GoodDen P D (lden p.monos + X v.id)) := by
  rw [Poly.plusVar_eq h.1 h.2 hv.1]
  obtain ⟨h1, h2⟩ := plusVarList_good h.2 h.1 hv.1 hv.2.1 hv.2.2
  rw [← plusVarList_den]
  exact Poly.asSimplified_den hD h1 h2

theorem Poly.plusPoly_den (hD : RearrFree D) {p q : Poly R} (hp : Good P D (.poly p))
    (hq : Good P D (.poly q)) :
    Go.Ok (p.plusPoly q) (GoodDen P D (lden p.monos + lden q.monos)) := by
  unfold Poly.plusPoly
  rw [GoodL.check hp.1 hp.2, GoodL.check hq.1 hq.2, Go.ok_bind, Go.ok_bind, ← lden_append]
  exact (Poly.asSimplified_den hD (p := ⟨p.monos ++ q.monos⟩) (by simp [hp.1])
    (goodL_append hp.2 hq.2)).bind (fun _ h => Scalar.asSimplified_den hD h)

theorem Poly.plusMono_den (hD : RearrFree D) {p : Poly R} (hp : Good P D (.poly p)) {m : Mono R}
    (hm : GoodM P D m) : Go.Ok (p.plusMono m) (GoodDen P D (lden p.monos + m.den)) := by
  unfold Poly.plusMono
  rw [GoodL.check hp.1 hp.2, hm.canon.check, Go.ok_bind, Go.ok_bind]
  have := Poly.plusPoly_den hD hp (Mono.toPoly_good hm)
  simp only [Mono.toPoly, lden_cons, lden_nil, add_zero] at this
  exact this.bind (fun _ h => Scalar.asSimplified_den hD h)

theorem Mono.plus_den (hD : RearrFree D) {m : Mono R} (hm : GoodM P D m) {e : Scalar R}
    (he : Good P D e) : Go.Ok (m.plus e) (GoodDen P D (m.den + e.den)) := by
  unfold Mono.plus
  rw [hm.canon.check, he.check, Go.ok_bind, Go.ok_bind]
  cases e with
  | k c =>
    simp only [Go.pure_eq, Go.ok_bind]
    split
    · rename_i hc
      refine Scalar.asSimplified_den hD ⟨trivial, ?_⟩
      have : m.vars = [] := by simpa [Mono.isConstant] using hc
      rw [Mono.den_of_vars_nil this]; simp
    · exact Scalar.asSimplified_den hD ⟨good_pair hm (goodM_const c), by simp⟩
  | var v =>
    simp only [Go.pure_eq, Go.ok_bind]
    rw [Mono.isDegreeOne_ok hm.canon.len he.1, Go.ok_bind]
    split
    · rename_i hc
      rw [decide_eq_true_eq] at hc
      refine Scalar.asSimplified_den (s := .mono _) hD ⟨hm.congr rfl rfl, ?_⟩
      rw [Scalar.den_mono, gn_add, Mono.den_add_coeff]
      congr 1
      rcases m with ⟨c, es, vs⟩
      simp only at hc
      rcases vs with _ | ⟨w, _ | ⟨w', vs⟩⟩
      · simp at hc
      · rw [hc.1, Var.degs_one]
        have : w.id = v.id := by simpa using hc.2
        rw [this]; rfl
      · simp at hc
    · exact Scalar.asSimplified_den hD ⟨good_pair hm (goodM_var he.1 he.2.1 he.2.2 _), by
        simp [den_one_var, Var.toMono]⟩
  | mono r =>
    simp only [Go.pure_eq, Go.ok_bind]
    obtain ⟨b, hb⟩ : ∃ b, m.matchesFormOf r = .ok b :=
      ⟨_, Mono.matches_ok hm.canon.len he.canon.len⟩
    rw [hb, Go.ok_bind]
    cases b with
    | true =>
      refine Scalar.asSimplified_den (s := .mono _) hD ⟨hm.congr rfl rfl, ?_⟩
      rw [Scalar.den_mono, gn_add, Mono.den_add_coeff,
        GoodM.degs_eq_of_matches (P := P) hD hm he hb]
      rfl
    | false => exact Scalar.asSimplified_den hD ⟨good_pair hm he, by simp⟩
  | poly p =>
    refine (Poly.plusMono_den hD he hm).bind (fun _ h => ?_)
    rw [add_comm] at h
    exact Scalar.asSimplified_den hD h

theorem Poly.plus_den (hD : RearrFree D) {p : Poly R} (hp : Good P D (.poly p)) {e : Scalar R}
    (he : Good P D e) : Go.Ok (p.plus e) (GoodDen P D (lden p.monos + e.den)) := by
  cases e with
  | k c => exact Poly.plusK_den hD hp c
  | var v => exact Poly.plusVar_den hD hp he
  | mono m => exact Poly.plusMono_den hD hp he
  | poly q => exact Poly.plusPoly_den hD hp he

theorem Var.plus_den (hD : RearrFree D) {v : Var R} (hv : Good P D (.var v)) {e : Scalar R}
    (he : Good P D e) : Go.Ok (v.plus e) (GoodDen P D (X v.id + e.den)) := by
  have gv : GoodM P D v.toMono := goodM_var hv.1 hv.2.1 hv.2.2 _
  unfold Var.plus
  rw [hv.1.check, Go.ok_bind]
  cases e with
  | k c =>
    simp only [Go.pure_eq, Go.ok_bind]
    exact Scalar.asSimplified_den hD ⟨good_pair gv (goodM_const c), by simp⟩
  | var w =>
    simp only [Go.pure_eq, Go.ok_bind]
    split
    · rename_i h
      refine Scalar.asSimplified_den (s := .mono _) hD ⟨goodM_var hv.1 hv.2.1 hv.2.2 _, ?_⟩
      rw [Scalar.den_mono, den_one_var, Scalar.den_var, ← h, gn_ofInt, ← two_mul]
      rw [show ((2 : Int) : R) = 2 by norm_num, map_ofNat]
    · exact Scalar.asSimplified_den hD
        ⟨good_pair gv (goodM_var he.1 he.2.1 he.2.2 _), by simp [den_one_var, Var.toMono]⟩
  | mono m =>
    refine (Mono.plus_den hD he hv).bind (fun _ h => ?_)
    rw [add_comm] at h
    exact Scalar.asSimplified_den hD h
  | poly p =>
    refine (Poly.plusVar_den hD he hv).bind (fun _ h => ?_)
    rw [add_comm] at h
    exact Scalar.asSimplified_den hD h

theorem kPlus_den (hD : RearrFree D) (c : R) {e : Scalar R} (he : Good P D e) :
    Go.Ok (kPlus c e) (GoodDen P D (C c + e.den)) := by
  unfold kPlus
  rw [he.check, Go.ok_bind]
  cases e with
  | k d => exact Go.ok_pure ⟨trivial, by simp⟩
  | var v => rw [add_comm]; exact Var.plus_den hD he (e := .k c) trivial
  | mono m => rw [add_comm]; exact Mono.plus_den hD he (e := .k c) trivial
  | poly p => rw [add_comm]; exact Poly.plusK_den hD he c

/-- `Plus` adds the denotations. -/
theorem Scalar.plus_den (hD : RearrFree D) {a b : Scalar R} (ha : Good P D a) (hb : Good P D b) :
    Go.Ok (a.plus b) (GoodDen P D (a.den + b.den)) := by
  cases a with
  | k c => exact kPlus_den hD c hb
  | var v => exact Var.plus_den hD ha hb
  | mono m => exact Mono.plus_den hD ha hb
  | poly p => exact Poly.plus_den hD ha hb

end Verif
