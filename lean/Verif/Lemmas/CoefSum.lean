import Verif.Lemmas.RoundMul

/-!
# The coefficients of sums and differences, number for number

On families of terms where matching terms are alike, every coefficient of a sum is the sum of the two coefficients
in the number type, whatever its rounding.
-/

set_option linter.unusedSectionVars false

namespace Verif

variable {R : Type} [GoNum R]

/-- What the numbers in `N` need: zero is neutral and equality means equality. -/
structure CoefLaws (N : R → Prop) : Prop where
  zero : N GoNum.zero
  one : N GoNum.one
  minus_one : N negOne
  add : ∀ x y, N x → N y → N (GoNum.add x y)
  neg : ∀ x, N x → N (GoNum.mul x negOne)
  zero_add : ∀ x, N x → GoNum.add GoNum.zero x = x
  add_zero : ∀ x, N x → GoNum.add x GoNum.zero = x
  add_comm : ∀ x y : R, GoNum.add x y = GoNum.add y x
  feq_zero : ∀ x, N x → GoNum.feq x GoNum.zero = true → x = GoNum.zero
  feq_one : ∀ x, N x → GoNum.feq x GoNum.one = true → x = GoNum.one
  two : (GoNum.ofInt 2 : R) = GoNum.add GoNum.one GoNum.one
  neg_one : GoNum.mul GoNum.one (negOne : R) = negOne
  neg_zero : GoNum.mul GoNum.zero (negOne : R) = GoNum.zero

/-- The coefficient of the first term with the exponents `d`. -/
noncomputable def fco (d : ℕ →₀ ℕ) : List (Mono R) → R
  | [] => GoNum.zero
  | m :: l => if m.degs = d then m.coeff else fco d l

/-- The coefficients with the exponents `d`, added one after the other. -/
noncomputable def facc (d : ℕ →₀ ℕ) : R → List (Mono R) → R
  | c, [] => c
  | c, m :: l => facc d (if m.degs = d then GoNum.add c m.coeff else c) l

/-- The coefficients are in `N`. -/
def NumL (N : R → Prop) (l : List (Mono R)) : Prop := ∀ m ∈ l, N m.coeff

/-- No exponents twice. -/
def OnceL (l : List (Mono R)) : Prop := (l.map Mono.degs).Nodup

theorem onceL_iff {l : List (Mono R)} : OnceL l ↔ DegsLe 1 l := List.nodup_iff_count_le_one

section Lists
variable {N : R → Prop} {d : ℕ →₀ ℕ}

theorem fco_cons (m : Mono R) (l : List (Mono R)) : fco d (m :: l) = if m.degs = d then m.coeff else fco d l := rfl

theorem fco_none {l : List (Mono R)} (h : ∀ m ∈ l, m.degs ≠ d) : fco d l = GoNum.zero := by
  induction l with
  | nil => rfl
  | cons m l ih => rw [fco_cons, if_neg (h m (by simp)), ih fun x hx => h x (by simp [hx])]

theorem fco_num (L : CoefLaws N) {l : List (Mono R)} (h : NumL N l) : N (fco d l) := by
  induction l with
  | nil => exact L.zero
  | cons m l ih =>
    rw [fco_cons]
    split
    · exact h m (by simp)
    · exact ih fun x hx => h x (by simp [hx])

theorem fco_append_none {l l' : List (Mono R)} (h : ∀ m ∈ l, m.degs ≠ d) : fco d (l ++ l') = fco d l' := by
  induction l with
  | nil => rfl
  | cons m l ih => rw [List.cons_append, fco_cons, if_neg (h m (by simp)), ih fun x hx => h x (by simp [hx])]

theorem facc_append (c : R) (l l' : List (Mono R)) : facc d c (l ++ l') = facc d (facc d c l) l' := by
  induction l generalizing c with
  | nil => rfl
  | cons m l ih => exact ih _

theorem facc_once (L : CoefLaws N) {l : List (Mono R)} (h : OnceL l) (hN : NumL N l) {c : R} (hc : N c) :
    facc d c l = GoNum.add c (fco d l) := by
  induction l generalizing c with
  | nil => exact (L.add_zero c hc).symm
  | cons m l ih =>
    unfold OnceL at h
    rw [List.map_cons, List.nodup_cons] at h
    show facc d (if m.degs = d then GoNum.add c m.coeff else c) l = _
    rw [fco_cons]
    have hm := hN m (by simp)
    have hl : NumL N l := fun x hx => hN x (by simp [hx])
    by_cases hd : m.degs = d
    · rw [if_pos hd, if_pos hd, ih h.2 hl (L.add _ _ hc hm), fco_none, L.add_zero _ (L.add _ _ hc hm)]
      intro x hx hxd
      exact h.1 (List.mem_map.mpr ⟨x, hx, hxd.trans hd.symm⟩)
    · rw [if_neg hd, if_neg hd, ih h.2 hl hc]

theorem filter_once {l : List (Mono R)} (p : Mono R → Bool) (h : OnceL l) : OnceL (l.filter p) :=
  (List.filter_sublist.map _).nodup h

theorem fco_filter (L : CoefLaws N) {l : List (Mono R)} (h : OnceL l) (hN : NumL N l) :
    fco d (l.filter fun m => !GoNum.feq m.coeff GoNum.zero) = fco d l := by
  induction l with
  | nil => rfl
  | cons m l ih =>
    unfold OnceL at h
    rw [List.map_cons, List.nodup_cons] at h
    have i := ih h.2 fun x hx => hN x (by simp [hx])
    rw [List.filter_cons]
    cases hz : GoNum.feq m.coeff (GoNum.zero : R) with
    | false =>
      simp only [Bool.not_false, if_true]
      rw [fco_cons, fco_cons, i]
    | true =>
      simp only [Bool.not_true, Bool.false_eq_true, if_false]
      rw [fco_cons, i]
      split
      · rename_i hd
        rw [L.feq_zero _ (hN m (by simp)) hz]
        refine fco_none fun x hx hxd => h.1 (List.mem_map.mpr ⟨x, hx, hxd.trans hd.symm⟩)
      · rfl

end Lists

variable {N : R → Prop} {P : Var R → Prop} {D : Set (ℕ →₀ ℕ)}

/-- Terms with the same exponents match. -/
theorem GoodM.matches_iff (hD : RearrFree D) (hF : D ⊆ flat) {e m : Mono R} (he : GoodM P D e) (hm : GoodM P D m) :
    ShapeMatch e.shape m.shape ↔ e.degs = m.degs := by
  refine ⟨fun h => congrArg Prod.fst (GoodM.key_eq_of_matches hD he hm h), fun h => ?_⟩
  refine shapeMatch_of_degs he.canon hm.canon ?_ h
  rcases he.degs with h | h
  · rw [he.canon.degs_eq_zero.mpr h]
    intro i hi
    simp at hi
  · exact hF h

theorem insertMono_coef (L : CoefLaws N) (hD : RearrFree D) (hF : D ⊆ flat) {m : Mono R} (hm : GoodM P D m)
    (hN : N m.coeff) (es : List (Mono R)) (hes : GoodL P D es) (hNe : NumL N es) (ho : OnceL es)
    {out : List (Mono R)} (h : insertMono m es = .ok out) :
    NumL N out ∧ out.map Mono.degs =
        (if m.degs ∈ es.map Mono.degs then es.map Mono.degs else es.map Mono.degs ++ [m.degs]) ∧
      ∀ d, fco d out = if m.degs = d then GoNum.add (fco d es) m.coeff else fco d es := by
  induction es generalizing out with
  | nil =>
    simp only [insertMono, Go.pure_eq, Except.ok.injEq] at h
    subst h
    refine ⟨by simpa [NumL] using hN, by simp, fun d => ?_⟩
    rw [fco_cons]
    show (if m.degs = d then m.coeff else GoNum.zero) = if m.degs = d then GoNum.add GoNum.zero m.coeff else GoNum.zero
    rw [L.zero_add _ hN]
  | cons e es ih =>
    have hge := hes e (by simp)
    unfold insertMono at h
    rw [Mono.matches_shape hge.canon.len hm.canon.len, Go.ok_bind] at h
    have hNes : NumL N es := fun x hx => hNe x (by simp [hx])
    unfold OnceL at ho
    rw [List.map_cons, List.nodup_cons] at ho
    by_cases hs : ShapeMatch e.shape m.shape
    · have hd := (GoodM.matches_iff hD hF hge hm).mp hs
      rw [if_pos (by simpa using hs)] at h
      simp only [Go.pure_eq, Except.ok.injEq] at h
      subst h
      refine ⟨?_, ?_, fun d => ?_⟩
      · intro x hx
        rcases List.mem_cons.mp hx with rfl | hx
        · exact L.add _ _ (hNe e (by simp)) hN
        · exact hNes x hx
      · rw [if_pos (by rw [← hd]; simp)]
        rfl
      · rw [fco_cons, fco_cons]
        show (if e.degs = d then GoNum.add e.coeff m.coeff else fco d es) = _
        rw [hd]
        by_cases h2 : m.degs = d
        · rw [if_pos h2, if_pos h2, if_pos h2]
        · rw [if_neg h2, if_neg h2, if_neg h2]
    · have hd : e.degs ≠ m.degs := fun h => hs ((GoodM.matches_iff hD hF hge hm).mpr h)
      rw [if_neg (by simpa using hs)] at h
      obtain ⟨o, ho', h⟩ := Go.bind_eq_ok.mp h
      simp only [Go.pure_eq, Except.ok.injEq] at h
      subst h
      obtain ⟨i1, i2, i3⟩ := ih (fun x hx => hes x (by simp [hx])) hNes ho.2 ho'
      refine ⟨?_, ?_, fun d => ?_⟩
      · intro x hx
        rcases List.mem_cons.mp hx with rfl | hx
        · exact hNe _ (by simp)
        · exact i1 x hx
      · rw [List.map_cons, i2, List.map_cons]
        by_cases hmem : m.degs ∈ es.map Mono.degs
        · rw [if_pos hmem, if_pos (by simp [hmem])]
        · rw [if_neg hmem, if_neg (by rw [List.mem_cons]; rintro (h | h); exacts [hd h.symm, hmem h])]
          rfl
      · rw [fco_cons, fco_cons, i3]
        by_cases h2 : e.degs = d
        · rw [if_pos h2, if_pos h2, if_neg (fun h => hd (h2.trans h.symm))]
        · rw [if_neg h2, if_neg h2]

/-- The coefficient in a state of the loop of `Simplify`. -/
noncomputable def stCo (d : ℕ →₀ ℕ) (st : R × List (Mono R)) : R := if d = 0 then st.1 else fco d st.2

theorem simplifyFold_coef (L : CoefLaws N) (hD : RearrFree D) (hF : D ⊆ flat) (l : List (Mono R))
    (hl : GoodL P D l) (hN : NumL N l) (c : R) (es : List (Mono R)) (hc : N c) (hes : GoodL P D es)
    (hv : ∀ m ∈ es, m.vars ≠ []) (hNe : NumL N es) (ho : OnceL es) {st}
    (h : l.foldlM simplifyStep (c, es) = .ok st) :
    N st.1 ∧ NumL N st.2 ∧ OnceL st.2 ∧ ∀ d, stCo d st = facc d (stCo d (c, es)) l := by
  induction l generalizing c es with
  | nil =>
    simp only [List.foldlM_nil, Go.pure_eq, Except.ok.injEq] at h
    subst h
    exact ⟨hc, hNe, ho, fun d => rfl⟩
  | cons m l ih =>
    have hgm := hl m (by simp)
    have hNm := hN m (by simp)
    rw [List.foldlM_cons] at h
    obtain ⟨⟨c', es'⟩, h1, h2⟩ := Go.bind_eq_ok.mp h
    have hgood : GoodL P D es' ∧ ∀ m ∈ es', m.vars ≠ [] := by
      have := simplifyFold_ok (P := P) (D := D) [m] c es
        (fun x hx => by rw [List.mem_singleton] at hx; exact hx ▸ hgm) hes hv
      simp only [List.foldlM_cons, List.foldlM_nil] at this
      rw [h1, Go.ok_bind, Go.pure_eq] at this
      obtain ⟨x, hx, hx2⟩ := this
      simp only [Except.ok.injEq] at hx
      subst hx
      exact hx2
    have key : N c' ∧ NumL N es' ∧ OnceL es' ∧
        ∀ d, stCo d (c', es') = if m.degs = d then GoNum.add (stCo d (c, es)) m.coeff else stCo d (c, es) := by
      unfold simplifyStep at h1
      by_cases hcst : m.isConstant
      · rw [if_pos hcst] at h1
        simp only [Go.pure_eq, Except.ok.injEq, Prod.mk.injEq] at h1
        obtain ⟨rfl, rfl⟩ := h1
        have hdeg : m.degs = 0 := hgm.canon.degs_eq_zero.mpr (by simpa [Mono.isConstant] using hcst)
        refine ⟨L.add _ _ hc hNm, hNe, ho, fun d => ?_⟩
        unfold stCo
        rw [hdeg]
        by_cases hd : d = 0
        · rw [if_pos hd, if_pos hd, if_pos hd.symm]
        · rw [if_neg hd, if_neg hd, if_neg (Ne.symm hd)]
      · rw [if_neg hcst] at h1
        obtain ⟨o, ho', h1⟩ := Go.bind_eq_ok.mp h1
        simp only [Go.pure_eq, Except.ok.injEq, Prod.mk.injEq] at h1
        obtain ⟨rfl, rfl⟩ := h1
        obtain ⟨i1, i2, i3⟩ := insertMono_coef L hD hF hgm hNm es hes hNe ho ho'
        refine ⟨hc, i1, ?_, fun d => ?_⟩
        · unfold OnceL
          rw [i2]
          split
          · exact ho
          · rename_i hmem
            rw [List.nodup_append]
            refine ⟨ho, by simp, fun a ha b hb => ?_⟩
            rw [List.mem_singleton] at hb
            subst hb
            rintro rfl
            exact hmem ha
        · have hdeg : m.degs ≠ 0 := fun h => hcst (by
            simpa [Mono.isConstant] using hgm.canon.degs_eq_zero.mp h)
          unfold stCo
          by_cases hd : d = 0
          · rw [if_pos hd, if_pos hd, if_neg (by rw [hd]; exact hdeg)]
          · rw [if_neg hd, if_neg hd]
            exact i3 d
    obtain ⟨k1, k2, k3, k4⟩ := key
    obtain ⟨j1, j2, j3, j4⟩ := ih (fun x hx => hl x (by simp [hx])) (fun x hx => hN x (by simp [hx])) c' es' k1
      hgood.1 hgood.2 k2 k3 h2
    refine ⟨j1, j2, j3, fun d => ?_⟩
    rw [j4, k4]
    rfl

/-! ## The result -/

/-- A result: well formed, no exponents twice, coefficients `f`. -/
structure CRes (N : R → Prop) (P : Var R → Prop) (D : Set (ℕ →₀ ℕ)) (f : (ℕ →₀ ℕ) → R) (r : Scalar R) : Prop where
  good : Good P D r
  nums : NumL N r.terms
  once : OnceL r.terms
  coef : ∀ d, fco d r.terms = f d

theorem CRes.congr {f g : (ℕ →₀ ℕ) → R} {r : Scalar R} (h : CRes N P D f r) (e : ∀ d, f d = g d) :
    CRes N P D g r := ⟨h.good, h.nums, h.once, fun d => (h.coef d).trans (e d)⟩

theorem once_single (m : Mono R) : OnceL [m] := by simp [OnceL]

theorem numL_single {m : Mono R} (h : N m.coeff) : NumL N [m] := by simpa [NumL] using h

theorem kToMono_degs (c : R) : (kToMono c).degs = 0 := rfl

theorem simplifyList_coef (L : CoefLaws N) {st : R × List (Mono R)} (hc : N st.1) (hN : NumL N st.2)
    (ho : OnceL st.2) (hg : GoodL P D st.2) (hv : ∀ m ∈ st.2, m.vars ≠ []) :
    NumL N (simplifyList st) ∧ OnceL (simplifyList st) ∧ ∀ d, fco d (simplifyList st) = stCo d st := by
  have hne : ∀ m ∈ st.2, m.degs ≠ 0 := fun m hm h => hv m hm ((hg m hm).canon.degs_eq_zero.mp h)
  have key : NumL N (simplifyOut st) ∧ OnceL (simplifyOut st) ∧ ∀ d, fco d (simplifyOut st) = stCo d st := by
    have hN' : NumL N (st.2.filter fun m => !GoNum.feq m.coeff GoNum.zero) :=
      fun m hm => hN m (List.mem_of_mem_filter hm)
    have ho' := filter_once (fun m => !GoNum.feq m.coeff GoNum.zero) ho
    have hf : ∀ d, fco d (st.2.filter fun m => !GoNum.feq m.coeff GoNum.zero) = fco d st.2 :=
      fun d => fco_filter L ho hN
    unfold simplifyOut
    cases hz : GoNum.feq st.1 (GoNum.zero : R) with
    | true =>
      simp only [if_true, List.nil_append]
      refine ⟨hN', ho', fun d => ?_⟩
      unfold stCo
      rw [hf]
      split
      · rename_i hd
        rw [L.feq_zero _ hc hz, hd]
        exact fco_none hne
      · rfl
    | false =>
      simp only [Bool.false_eq_true, if_false, List.singleton_append]
      refine ⟨?_, ?_, fun d => ?_⟩
      · intro m hm
        rcases List.mem_cons.mp hm with rfl | hm
        · exact hc
        · exact hN' m hm
      · unfold OnceL
        rw [List.map_cons, List.nodup_cons]
        refine ⟨fun hmem => ?_, ho'⟩
        obtain ⟨b, hb, hbd⟩ := List.mem_map.mp hmem
        exact hne b (List.mem_of_mem_filter hb) hbd
      · rw [fco_cons, kToMono_degs, hf]
        unfold stCo
        by_cases hd : d = 0
        · rw [if_pos hd.symm, if_pos hd]
          rfl
        · rw [if_neg (Ne.symm hd), if_neg hd]
  unfold simplifyList
  split
  · rename_i he
    rw [List.isEmpty_iff] at he
    rw [he] at key
    refine ⟨numL_single L.zero, once_single _, fun d => ?_⟩
    rw [← key.2.2 d, fco_cons]
    split <;> rfl
  · exact key

theorem SimpResult.coef (L : CoefLaws N) {l : List (Mono R)} {r : Scalar R} (h : SimpResult l r) (hN : NumL N l) :
    NumL N r.terms ∧ r.terms.map Mono.degs = l.map Mono.degs ∧ ∀ d, fco d r.terms = fco d l := by
  cases h with
  | const c h => subst h; exact ⟨hN, rfl, fun _ => rfl⟩
  | var c v h hc =>
    subst h
    have h1 : c = GoNum.one := L.feq_one _ (hN _ (List.mem_singleton.mpr rfl)) hc
    subst h1
    exact ⟨hN, rfl, fun _ => rfl⟩
  | mono m h hv hn => subst h; exact ⟨hN, rfl, fun _ => rfl⟩
  | poly h => exact ⟨hN, rfl, fun _ => rfl⟩

theorem Poly.asSimplified_coef (L : CoefLaws N) (hD : RearrFree D) (hF : D ⊆ flat) {l : List (Mono R)} (hne : l ≠ [])
    (hN : NumL N l) (hg : GoodL P D l) :
    Go.Ok (Poly.asSimplified ⟨l⟩) (CRes N P D fun d => facc d GoNum.zero l) := by
  refine (Poly.asSimplified_ok (p := ⟨l⟩) hne hg).mono ?_
  rintro r ⟨q, hq, -, hqg, hr⟩
  obtain ⟨st, hst, h1, h2⟩ := simplifyFold_ok l GoNum.zero [] hg (by simp [GoodL]) (by simp)
  obtain ⟨i1, i2, i3, i4⟩ := simplifyFold_coef L hD hF l hg hN GoNum.zero [] L.zero (by simp [GoodL]) (by simp)
    (by simp [NumL]) (by simp [OnceL]) hst
  rw [Poly.simplify_eq (GoodL.check hne hg) hst, Except.ok.injEq] at hq
  subst hq
  obtain ⟨j1, j2, j3⟩ := simplifyList_coef L i1 i2 i3 h1 h2
  obtain ⟨k1, k2, k3⟩ := hr.coef L j1
  refine ⟨hr.good hqg, k1, ?_, fun d => ?_⟩
  · unfold OnceL
    rw [k2]
    exact j2
  · rw [k3, j3, i4]
    congr 1
    unfold stCo
    split <;> rfl

theorem Mono.asSimplified_coef (L : CoefLaws N) {m : Mono R} (hg : GoodM P D m) (hN : N m.coeff) :
    Go.Ok m.asSimplified (CRes N P D fun d => fco d [m]) := by
  refine ((Mono.asSimplified_good hg).and (Q := fun r => NumL N r.terms ∧ OnceL r.terms ∧
    ∀ d, fco d r.terms = fco d [m]) ?_).mono fun r h => ⟨h.1, h.2.1, h.2.2.1, h.2.2.2⟩
  intro r hr
  rw [Mono.asSimplified_eq hg.canon, Except.ok.injEq] at hr
  split at hr
  · rename_i hv
    subst hr
    refine ⟨numL_single hN, once_single _, fun d => ?_⟩
    show (if (kToMono m.coeff).degs = d then _ else _) = (if m.degs = d then _ else _)
    rw [hg.canon.degs_eq_zero.mpr hv, kToMono_degs]
    rfl
  · split at hr
    · rename_i h0
      subst hr
      refine ⟨numL_single L.zero, once_single _, fun d => ?_⟩
      rw [fco_cons, L.feq_zero _ hN h0]
      show (if _ then GoNum.zero else GoNum.zero) = if _ then GoNum.zero else GoNum.zero
      simp
    · split at hr
      · rename_i hv _ h1
        rcases m with ⟨c, es, vs⟩
        simp only at hv h1 hr hN
        cases vs with
        | nil => exact absurd rfl hv
        | cons v vs =>
          have hl := hg.canon.len
          simp only [h1.2, List.length_cons, List.length_nil] at hl
          have : vs = [] := by
            rw [← List.length_eq_zero_iff]; omega
          subst this
          subst hr
          obtain ⟨h1, rfl⟩ := h1
          have h1 : c = GoNum.one := L.feq_one _ hN h1
          subst h1
          exact ⟨numL_single hN, once_single _, fun d => rfl⟩
      · subst hr
        exact ⟨numL_single hN, once_single _, fun d => rfl⟩

theorem Poly.asSimplified_once (L : CoefLaws N) (hD : RearrFree D) (hF : D ⊆ flat) {l : List (Mono R)} (hne : l ≠ [])
    (hN : NumL N l) (hg : GoodL P D l) (ho : OnceL l) :
    Go.Ok (Poly.asSimplified ⟨l⟩) (CRes N P D fun d => fco d l) :=
  (Poly.asSimplified_coef L hD hF hne hN hg).mono fun r hr => hr.congr fun d => by
    rw [facc_once L ho hN L.zero, L.zero_add _ (fco_num L hN)]

theorem CRes.simp (L : CoefLaws N) (hD : RearrFree D) (hF : D ⊆ flat) {f : (ℕ →₀ ℕ) → R} {r : Scalar R}
    (h : CRes N P D f r) : Go.Ok r.asSimplified (CRes N P D f) := by
  cases r with
  | k c => exact Go.ok_pure h
  | var v => exact Go.ok_pure h
  | mono m => exact (Mono.asSimplified_coef L h.good (h.nums m (by simp [Scalar.terms]))).mono fun r hr => hr.congr h.coef
  | poly p => exact (Poly.asSimplified_once L hD hF h.good.1 h.nums h.good.2 h.once).mono fun r hr => hr.congr h.coef

/-! ## Plus -/

/-- The operands: well formed, no exponents twice. -/
structure COpd (N : R → Prop) (P : Var R → Prop) (D : Set (ℕ →₀ ℕ)) (s : Scalar R) : Prop where
  good : Good P D s
  nums : NumL N s.terms
  once : OnceL s.terms

theorem CRes.opd {f : (ℕ →₀ ℕ) → R} {r : Scalar R} (h : CRes N P D f r) : COpd N P D r := ⟨h.good, h.nums, h.once⟩

/-- The coefficients of the sum of two term lists. -/
noncomputable def csum (l l' : List (Mono R)) (d : ℕ →₀ ℕ) : R := GoNum.add (fco d l) (fco d l')

theorem csum_comm (L : CoefLaws N) (l l' : List (Mono R)) (d : ℕ →₀ ℕ) : csum l l' d = csum l' l d := L.add_comm _ _

theorem append_coef (L : CoefLaws N) (hD : RearrFree D) (hF : D ⊆ flat) {l l' : List (Mono R)} (hne : l ≠ [])
    (hN : NumL N l) (hN' : NumL N l') (hg : GoodL P D l) (hg' : GoodL P D l') (ho : OnceL l) (ho' : OnceL l') :
    Go.Ok (Poly.asSimplified ⟨l ++ l'⟩) (CRes N P D (csum l l')) := by
  refine (Poly.asSimplified_coef L hD hF (by simp [hne]) (fun m hm => ?_) (goodL_append hg hg')).mono
    fun r hr => hr.congr fun d => ?_
  · rcases List.mem_append.mp hm with h | h
    exacts [hN m h, hN' m h]
  · rw [facc_append, facc_once L ho hN L.zero, L.zero_add _ (fco_num L hN), facc_once L ho' hN' (fco_num L hN)]
    rfl

theorem modify_coef (L : CoefLaws N) (hD : RearrFree D) (hF : D ⊆ flat) {l : List (Mono R)} (hN : NumL N l)
    (hg : GoodL P D l) (ho : OnceL l) {i : ℕ} {x y : Mono R} (hx : l[i]? = some x) (hd : x.degs = y.degs)
    (hc : N y.coeff) :
    Go.Ok (Poly.asSimplified ⟨l.modify i (fun m => { m with coeff := GoNum.add m.coeff y.coeff })⟩)
      (CRes N P D (csum l [y])) := by
  obtain ⟨l1, l2, rfl, h2⟩ := modify_split hx (fun m => { m with coeff := GoNum.add m.coeff y.coeff })
  rw [h2]
  have hxN := hN x (by simp)
  have hxg := hg x (by simp)
  unfold OnceL at ho
  rw [List.map_append, List.map_cons, List.nodup_append, List.nodup_cons] at ho
  refine (Poly.asSimplified_once L hD hF (by simp) (fun m hm => ?_) (fun m hm => ?_) ?_).mono
    fun r hr => hr.congr fun d => ?_
  · rcases List.mem_append.mp hm with hm | hm
    · exact hN m (by simp [hm])
    · rcases List.mem_cons.mp hm with rfl | hm
      · exact L.add _ _ hxN hc
      · exact hN m (by simp [hm])
  · rcases List.mem_append.mp hm with hm | hm
    · exact hg m (by simp [hm])
    · rcases List.mem_cons.mp hm with rfl | hm
      · exact hxg.congr rfl rfl
      · exact hg m (by simp [hm])
  · unfold OnceL
    rw [List.map_append, List.map_cons, List.nodup_append, List.nodup_cons]
    exact ho
  · unfold csum
    by_cases h : x.degs = d
    · have hnone : ∀ m ∈ l1, m.degs ≠ d := fun m hm hmd =>
        ho.2.2 _ (List.mem_map_of_mem hm) x.degs (by simp) (hmd.trans h.symm)
      rw [fco_append_none hnone, fco_append_none hnone, fco_cons, fco_cons, fco_cons]
      have h' : y.degs = d := hd ▸ h
      rw [if_pos h, if_pos h', if_pos (show Mono.degs { x with coeff := GoNum.add x.coeff y.coeff } = d from h)]
    · have h' : y.degs ≠ d := hd ▸ h
      have e : fco d [y] = GoNum.zero := fco_none (by simpa using h')
      rw [e, L.add_zero _ (fco_num L hN)]
      clear hx h2 hN hg ho hr
      induction l1 with
      | nil =>
        show (if x.degs = d then _ else _) = (if x.degs = d then _ else _)
        rw [if_neg h, if_neg h]
      | cons a l1 ih => rw [List.cons_append, List.cons_append, fco_cons, fco_cons, ih]

section Plus
variable (L : CoefLaws N) (hD : RearrFree D) (hF : D ⊆ flat)
include L hD hF

theorem Poly.plusPoly_coef {p q : Poly R} (hp : COpd N P D (.poly p)) (hq : COpd N P D (.poly q)) :
    Go.Ok (p.plusPoly q) (CRes N P D (csum p.monos q.monos)) := by
  unfold Poly.plusPoly
  rw [GoodL.check hp.good.1 hp.good.2, GoodL.check hq.good.1 hq.good.2, Go.ok_bind, Go.ok_bind]
  exact (append_coef L hD hF hp.good.1 hp.nums hq.nums hp.good.2 hq.good.2 hp.once hq.once).bind
    fun r hr => hr.simp L hD hF

theorem Poly.plusMono_coef {p : Poly R} {m : Mono R} (hp : COpd N P D (.poly p)) (hm : COpd N P D (.mono m)) :
    Go.Ok (p.plusMono m) (CRes N P D (csum p.monos [m])) := by
  unfold Poly.plusMono
  have hgm : GoodM P D m := hm.good
  rw [GoodL.check hp.good.1 hp.good.2, hgm.canon.check, Go.ok_bind, Go.ok_bind]
  exact (Poly.plusPoly_coef L hD hF (q := m.toPoly) hp ⟨Mono.toPoly_good hgm, hm.nums, hm.once⟩).bind
    fun r hr => hr.simp L hD hF

theorem Poly.plusK_coef {p : Poly R} {c : R} (hp : COpd N P D (.poly p)) (hc : COpd N P D (.k c)) :
    Go.Ok (p.plusK c) (CRes N P D (csum p.monos [kToMono c])) := by
  rw [Poly.plusK_eq (GoodL.check hp.good.1 hp.good.2)]
  unfold plusKList
  split
  · exact append_coef L hD hF (l' := [kToMono c]) hp.good.1 hp.nums hc.nums hp.good.2 hc.good.terms hp.once hc.once
  · rename_i i hi
    obtain ⟨x, hx, hx2⟩ := findIdx_get hi
    have hxg : GoodM P D x := hp.good.2 x (List.mem_of_getElem? hx)
    have hdeg : x.degs = (kToMono c).degs := by
      rw [hxg.canon.degs_eq_zero.mpr (by simpa [Mono.isConstant] using hx2)]; rfl
    exact modify_coef L hD hF hp.nums hp.good.2 hp.once hx hdeg (hc.nums _ (List.mem_singleton.mpr rfl))

theorem Poly.plusVar_coef {p : Poly R} {v : Var R} (hp : COpd N P D (.poly p)) (hv : COpd N P D (.var v)) :
    Go.Ok (p.plusVar v) (CRes N P D (csum p.monos [v.toMono])) := by
  rw [Poly.plusVar_eq hp.good.1 hp.good.2 hv.good.1]
  unfold plusVarList
  split
  · exact append_coef L hD hF (l' := [v.toMono]) hp.good.1 hp.nums hv.nums hp.good.2 hv.good.terms hp.once hv.once
  · rename_i i hi
    obtain ⟨x, hx, hx2⟩ := findIdx_get hi
    simp only [decide_eq_true_eq] at hx2
    exact modify_coef L hD hF hp.nums hp.good.2 hp.once hx (y := v.toMono) (degs_of_linear hx2.1 hx2.2) L.one

omit hD hF in
theorem add_coeff_coef {m r : Mono R} (hm : GoodM P D m) (hd : r.degs = m.degs) (hmN : N m.coeff) (hrN : N r.coeff) :
    Go.Ok (Mono.asSimplified { m with coeff := GoNum.add m.coeff r.coeff }) (CRes N P D (csum [m] [r])) := by
  refine (Mono.asSimplified_coef L (m := { m with coeff := GoNum.add m.coeff r.coeff }) (hm.congr rfl rfl)
    (L.add _ _ hmN hrN)).mono fun s hs => hs.congr fun d => ?_
  unfold csum
  rw [fco_cons, fco_cons, fco_cons, hd]
  show (if m.degs = d then _ else GoNum.zero) = _
  split
  · rfl
  · exact (L.zero_add _ L.zero).symm

omit hD hF in
theorem add_const_coef {m : Mono R} {c : R} (hm : GoodM P D m) (hv : m.vars = []) (hmN : N m.coeff) (hc : N c) :
    Go.Ok (Scalar.asSimplified (.k (GoNum.add m.coeff c))) (CRes N P D (csum [m] [kToMono c])) := by
  have h := add_coeff_coef (P := P) (D := D) L (r := kToMono c) hm (hm.canon.degs_eq_zero.mpr hv).symm hmN hc
  have hg : GoodM P D { m with coeff := GoNum.add m.coeff (kToMono c).coeff } := hm.congr rfl rfl
  rw [Mono.asSimplified_eq hg.canon, if_pos hv] at h
  exact h

theorem pair_coef {m r : Mono R} (hm : COpd N P D (.mono m)) (hr : COpd N P D (.mono r)) :
    Go.Ok (Scalar.asSimplified (.poly ⟨[m, r]⟩)) (CRes N P D (csum [m] [r])) :=
  append_coef L hD hF (l := [m]) (l' := [r]) (by simp) hm.nums hr.nums hm.good.terms hr.good.terms hm.once hr.once

omit L hD hF in
theorem COpd.kMono {c : R} (h : COpd N P D (.k c)) : COpd N P D (.mono (kToMono c)) := ⟨goodM_const c, h.nums, h.once⟩

omit L hD hF in
theorem COpd.vMono {v : Var R} (h : COpd N P D (.var v)) : COpd N P D (.mono v.toMono) :=
  ⟨goodM_var h.good.1 h.good.2.1 h.good.2.2 _, h.nums, h.once⟩

theorem Mono.plus_coef {m : Mono R} {e : Scalar R} (hm : COpd N P D (.mono m)) (he : COpd N P D e) :
    Go.Ok (m.plus e) (CRes N P D (csum [m] e.terms)) := by
  have hgm : GoodM P D m := hm.good
  have hmN : N m.coeff := hm.nums _ (List.mem_singleton.mpr rfl)
  unfold Mono.plus
  rw [hgm.canon.check, he.good.check, Go.ok_bind, Go.ok_bind]
  cases e with
  | k c =>
    simp only [Go.pure_eq, Go.ok_bind]
    split
    · rename_i hc
      exact add_const_coef L hgm (by simpa [Mono.isConstant] using hc) hmN (he.nums _ (List.mem_singleton.mpr rfl))
    · exact pair_coef L hD hF hm he.kMono
  | var v =>
    simp only [Go.pure_eq, Go.ok_bind]
    rw [Mono.isDegreeOne_ok hgm.canon.len he.good.1, Go.ok_bind]
    split
    · rename_i h1
      simp only [decide_eq_true_eq] at h1
      exact add_coeff_coef L (r := v.toMono) hgm (degs_of_linear h1.1 h1.2).symm hmN L.one
    · exact pair_coef L hD hF hm he.vMono
  | mono r =>
    have hgr : GoodM P D r := he.good
    simp only [Go.pure_eq, Go.ok_bind]
    rw [Mono.matches_shape hgm.canon.len hgr.canon.len, Go.ok_bind]
    split
    · rename_i h1
      exact add_coeff_coef L hgm ((GoodM.matches_iff hD hF hgm hgr).mp (by simpa using h1)).symm hmN
        (he.nums _ (List.mem_singleton.mpr rfl))
    · exact pair_coef L hD hF hm he
  | poly p =>
    exact (Poly.plusMono_coef L hD hF he hm).bind fun r hr =>
      (hr.simp L hD hF).mono fun s hs => hs.congr fun d => csum_comm L _ _ d

theorem Var.plus_coef {v : Var R} {e : Scalar R} (hv : COpd N P D (.var v)) (he : COpd N P D e) :
    Go.Ok (v.plus e) (CRes N P D (csum [v.toMono] e.terms)) := by
  unfold Var.plus
  rw [hv.good.1.check, Go.ok_bind]
  cases e with
  | k c =>
    simp only [Go.pure_eq, Go.ok_bind]
    exact pair_coef L hD hF hv.vMono he.kMono
  | var w =>
    simp only [Go.pure_eq, Go.ok_bind]
    split
    · rename_i h1
      have hd : w.toMono.degs = v.toMono.degs := by
        rw [Var.toMono, Var.degs_one, Var.toMono, Var.degs_one, h1]
      have := add_coeff_coef (P := P) (D := D) L (m := v.toMono) (r := w.toMono)
        (goodM_var hv.good.1 hv.good.2.1 hv.good.2.2 _) hd L.one L.one
      rw [show GoNum.add (Var.toMono v).coeff (Var.toMono w).coeff = GoNum.add GoNum.one GoNum.one from rfl,
        ← L.two] at this
      exact this
    · exact pair_coef L hD hF hv.vMono he.vMono
  | mono m =>
    exact (Mono.plus_coef L hD hF he hv).bind fun r hr =>
      (hr.simp L hD hF).mono fun s hs => hs.congr fun d => csum_comm L _ _ d
  | poly p =>
    exact (Poly.plusVar_coef L hD hF he hv).bind fun r hr =>
      (hr.simp L hD hF).mono fun s hs => hs.congr fun d => csum_comm L _ _ d

/-- `Plus`: coefficient by coefficient. -/
theorem Scalar.plus_coef {a b : Scalar R} (ha : COpd N P D a) (hb : COpd N P D b) :
    Go.Ok (a.plus b) (CRes N P D (csum a.terms b.terms)) := by
  cases a with
  | k c =>
    show Go.Ok (kPlus c b) _
    unfold kPlus
    rw [hb.good.check, Go.ok_bind]
    cases b with
    | k d =>
      exact add_const_coef L (m := kToMono c) (goodM_const c) rfl (ha.nums _ (List.mem_singleton.mpr rfl))
        (hb.nums _ (List.mem_singleton.mpr rfl))
    | var v => exact (Var.plus_coef L hD hF hb ha).mono fun s hs => hs.congr fun d => csum_comm L _ _ d
    | mono m => exact (Mono.plus_coef L hD hF hb ha).mono fun s hs => hs.congr fun d => csum_comm L _ _ d
    | poly p => exact (Poly.plusK_coef L hD hF hb ha).mono fun s hs => hs.congr fun d => csum_comm L _ _ d
  | var v => exact Var.plus_coef L hD hF ha hb
  | mono m => exact Mono.plus_coef L hD hF ha hb
  | poly p =>
    cases b with
    | k c => exact Poly.plusK_coef L hD hF ha hb
    | var v => exact Poly.plusVar_coef L hD hF ha hb
    | mono m => exact Poly.plusMono_coef L hD hF ha hb
    | poly q => exact Poly.plusPoly_coef L hD hF ha hb

end Plus

/-! ## Minus -/

/-- The coefficients with changed signs. -/
noncomputable def cneg (l : List (Mono R)) (d : ℕ →₀ ℕ) : R := GoNum.mul (fco d l) negOne

theorem fco_mulK (L : CoefLaws N) (l : List (Mono R)) (d : ℕ →₀ ℕ) :
    fco d (l.map (·.mulK negOne)) = cneg l d := by
  induction l with
  | nil => exact L.neg_zero.symm
  | cons m l ih =>
    rw [List.map_cons, fco_cons, ih]
    unfold cneg
    rw [fco_cons]
    show (if m.degs = d then _ else _) = _
    split <;> rfl

section Minus
variable (L : CoefLaws N) (hD : RearrFree D) (hF : D ⊆ flat)
include L hD hF

theorem Scalar.mulNeg_coef {b : Scalar R} (hb : COpd N P D b) :
    Go.Ok (b.mul (.k negOne)) (CRes N P D (cneg b.terms)) := by
  have hsingle : ∀ m : Mono R, GoodM P D m → N m.coeff → CRes N P D (cneg [m]) (.mono (m.mulK negOne)) :=
    fun m hm hN => ⟨Mono.mulK_good hm _, numL_single (L.neg _ hN), once_single _, fco_mulK L [m]⟩
  cases b with
  | k d =>
    have := hsingle (kToMono d) (goodM_const d) (hb.nums _ (List.mem_singleton.mpr rfl))
    exact Go.ok_pure ⟨trivial, this.nums, this.once, this.coef⟩
  | mono m =>
    have hgm : GoodM P D m := hb.good
    show Go.Ok (m.mul (.k negOne)) _
    unfold Mono.mul
    rw [hgm.canon.check, Go.ok_bind]
    exact Go.ok_pure (hsingle m hgm (hb.nums _ (List.mem_singleton.mpr rfl)))
  | var v =>
    show Go.Ok (v.mul (.k negOne)) _
    unfold Var.mul
    rw [hb.good.1.check, Go.ok_bind]
    show Go.Ok (Scalar.asSimplified (.mono ⟨negOne, [1], [v]⟩)) _
    have := hsingle v.toMono (goodM_var hb.good.1 hb.good.2.1 hb.good.2.2 _) L.one
    have e : v.toMono.mulK negOne = ⟨negOne, [1], [v]⟩ := by
      show Mono.mk (GoNum.mul GoNum.one negOne) [1] [v] = _
      rw [L.neg_one]
    rw [e] at this
    exact this.simp L hD hF
  | poly p =>
    show Go.Ok (p.mulK negOne) _
    unfold Poly.mulK
    rw [GoodL.check hb.good.1 hb.good.2, Go.ok_bind]
    refine (Poly.asSimplified_once (l := p.monos.map (·.mulK negOne)) L hD hF (by simpa using hb.good.1)
      (fun q hq => ?_) (fun q hq => ?_) ?_).mono fun r hr => hr.congr (fco_mulK L _)
    · obtain ⟨m, hm, rfl⟩ := List.mem_map.mp hq
      exact L.neg _ (hb.nums m hm)
    · obtain ⟨m, hm, rfl⟩ := List.mem_map.mp hq
      exact Mono.mulK_good (hb.good.2 m hm) _
    · unfold OnceL
      rw [List.map_map]
      exact hb.once

theorem Scalar.neg_coef {b : Scalar R} (hb : COpd N P D b) : Go.Ok (b.mulF64 negOne) (CRes N P D (cneg b.terms)) := by
  have h := Scalar.mulNeg_coef L hD hF hb
  cases b with
  | k d => exact h
  | mono m => exact h
  | var v => exact h.bind fun r hr => hr.simp L hD hF
  | poly p => exact h.bind fun r hr => hr.simp L hD hF

/-- The coefficients of the difference of two term lists. -/
noncomputable def cdiff (l l' : List (Mono R)) (d : ℕ →₀ ℕ) : R := GoNum.add (fco d l) (GoNum.mul (fco d l') negOne)

/-- `Minus`: coefficient by coefficient. -/
theorem Scalar.minus_coef {a b : Scalar R} (ha : COpd N P D a) (hb : COpd N P D b) :
    Go.Ok (a.minus b) (CRes N P D (cdiff a.terms b.terms)) := by
  unfold Scalar.minus
  rw [ha.good.check, hb.good.check, Go.ok_bind, Go.ok_bind]
  refine (Scalar.neg_coef L hD hF hb).bind fun nb hnb => ?_
  refine (Scalar.plus_coef L hD hF ha hnb.opd).mono fun r hr => hr.congr fun d => ?_
  unfold csum cdiff
  rw [hnb.coef]
  rfl

end Minus

end Verif
