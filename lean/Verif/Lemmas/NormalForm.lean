import Verif.Lemmas.Families

/-!
# The normal form produced by `Simplify`
-/

set_option linter.unusedSectionVars false

namespace Verif

section Struct

variable {R : Type} [GoNum R]
variable {P : Var R → Prop} {D : Set (ℕ →₀ ℕ)}

/-- The shape of a monomial: everything except the coefficient. -/
def Mono.shape (m : Mono R) : List (Var R) × List Int := (m.vars, m.exps)

/-- The test made by `MatchesFormOf`. -/
def ShapeMatch (a b : List (Var R) × List Int) : Prop :=
  a.1.length = b.1.length ∧ a.2 = b.2 ∧ ∀ v ∈ a.1, v.id ∈ b.1.map (·.id)

instance (a b : List (Var R) × List Int) : Decidable (ShapeMatch a b) := by
  unfold ShapeMatch; infer_instance

theorem Mono.matches_shape {m r : Mono R} (hm : m.exps.length = m.vars.length)
    (hr : r.exps.length = r.vars.length) :
    m.matchesFormOf r = .ok (decide (ShapeMatch m.shape r.shape)) := by
  rw [Mono.matches_ok hm hr]; rfl

/-- `insertMono` either only changes a coefficient, or appends a term that matches nothing. -/
theorem insertMono_cases {m : Mono R} (hm : m.exps.length = m.vars.length) (es : List (Mono R))
    (hes : ∀ e ∈ es, e.exps.length = e.vars.length) {out} (h : insertMono m es = .ok out) :
    ((∃ e ∈ es, ShapeMatch e.shape m.shape) ∧ out.map Mono.shape = es.map Mono.shape) ∨
    ((∀ e ∈ es, ¬ ShapeMatch e.shape m.shape) ∧ out = es ++ [m]) := by
  induction es generalizing out with
  | nil =>
    simp only [insertMono, Go.pure_eq, Except.ok.injEq] at h
    subst h
    right
    exact ⟨by simp, rfl⟩
  | cons e es ih =>
    unfold insertMono at h
    rw [Mono.matches_shape (hes e (by simp)) hm, Go.ok_bind] at h
    by_cases hb : ShapeMatch e.shape m.shape
    · simp only [hb, decide_true, if_true, Go.pure_eq, Except.ok.injEq] at h
      subst h
      left
      exact ⟨⟨e, by simp, hb⟩, rfl⟩
    · simp only [hb, decide_false, Bool.false_eq_true, if_false] at h
      obtain ⟨o, ho, h⟩ := Go.bind_eq_ok.mp h
      simp only [Go.pure_eq, Except.ok.injEq] at h
      subst h
      rcases ih (fun x hx => hes x (by simp [hx])) ho with ⟨⟨x, hx, hxm⟩, h2⟩ | ⟨h1, h2⟩
      · left
        exact ⟨⟨x, by simp [hx], hxm⟩, by simp [h2]⟩
      · right
        refine ⟨?_, by rw [h2]; rfl⟩
        intro x hx
        rcases List.mem_cons.mp hx with rfl | hx
        · exact hb
        · exact h1 x hx

/-- A term that matches nothing is appended. -/
theorem insertMono_append {m : Mono R} (hm : m.exps.length = m.vars.length) (es : List (Mono R))
    (hes : ∀ e ∈ es, e.exps.length = e.vars.length) (h : ∀ e ∈ es, ¬ ShapeMatch e.shape m.shape) :
    insertMono m es = .ok (es ++ [m]) := by
  induction es with
  | nil => rfl
  | cons e es ih =>
    unfold insertMono
    rw [Mono.matches_shape (hes e (by simp)) hm, Go.ok_bind]
    simp only [h e (by simp), decide_false, Bool.false_eq_true, if_false]
    rw [ih (fun x hx => hes x (by simp [hx])) (fun x hx => h x (by simp [hx]))]
    rfl

/-- Earlier terms do not match later ones. -/
def NoMatch (l : List (Mono R)) : Prop :=
  (l.map Mono.shape).Pairwise (fun a b => ¬ ShapeMatch a b)

theorem simplifyFold_noMatch (l : List (Mono R)) (c : R) (nc : List (Mono R)) (hl : GoodL P D l)
    (hnc : GoodL P D nc) (hv : ∀ m ∈ nc, m.vars ≠ []) (hp : NoMatch nc) {st}
    (h : l.foldlM simplifyStep (c, nc) = .ok st) : NoMatch st.2 := by
  induction l generalizing c nc with
  | nil =>
    simp only [List.foldlM_nil, Go.pure_eq, Except.ok.injEq] at h
    subst h; exact hp
  | cons a l ih =>
    rw [List.foldlM_cons] at h
    obtain ⟨⟨c', nc'⟩, h1, h2⟩ := Go.bind_eq_ok.mp h
    have ha := hl a (by simp)
    have hg : GoodL P D nc' ∧ ∀ m ∈ nc', m.vars ≠ [] := by
      have := simplifyFold_ok (P := P) (D := D) [a] c nc
        (fun m hm => by rw [List.mem_singleton] at hm; exact hm ▸ ha) hnc hv
      simp only [List.foldlM_cons, List.foldlM_nil] at this
      rw [h1, Go.ok_bind, Go.pure_eq] at this
      obtain ⟨x, hx, hx2⟩ := this
      simp only [Except.ok.injEq] at hx
      subst hx
      exact hx2
    refine ih c' nc' (fun m hm => hl m (by simp [hm])) hg.1 hg.2 ?_ h2
    unfold simplifyStep at h1
    by_cases hc : a.isConstant
    · rw [if_pos hc] at h1
      simp only [Go.pure_eq, Except.ok.injEq, Prod.mk.injEq] at h1
      obtain ⟨-, rfl⟩ := h1
      exact hp
    · rw [if_neg hc] at h1
      obtain ⟨o, ho, h1⟩ := Go.bind_eq_ok.mp h1
      simp only [Go.pure_eq, Except.ok.injEq, Prod.mk.injEq] at h1
      obtain ⟨-, rfl⟩ := h1
      rcases insertMono_cases ha.canon.len nc (fun e he => (hnc e he).canon.len) ho with
        ⟨-, h3⟩ | ⟨h3, h4⟩
      · unfold NoMatch; rw [h3]; exact hp
      · unfold NoMatch
        rw [h4, List.map_append, List.pairwise_append]
        refine ⟨hp, by simp, ?_⟩
        intro x hx y hy
        obtain ⟨e, he, rfl⟩ := List.mem_map.mp hx
        simp only [List.map_cons, List.map_nil, List.mem_singleton] at hy
        subst hy
        exact h3 e he

/-- What `Simplify` produces: `c` is the list with the constant term (empty, or one element), `nc`
the other terms. -/
structure NF (P : Var R → Prop) (D : Set (ℕ →₀ ℕ)) (l : List (Mono R)) : Prop where
  good : GoodL P D l
  form : (∃ c, l = [kToMono c]) ∨
    (∃ nc, nc ≠ [] ∧ (∀ m ∈ nc, m.vars ≠ [] ∧ GoNum.feq m.coeff GoNum.zero = false) ∧ NoMatch nc ∧
      (l = nc ∨ ∃ c, GoNum.feq c GoNum.zero = false ∧ l = kToMono c :: nc))

theorem simplify_nf {p q : Poly R} (hne : p.monos ≠ []) (h : GoodL P D p.monos)
    (hq : p.simplify = .ok q) : NF P D q.monos := by
  obtain ⟨st, hst, h1, h2⟩ := simplifyFold_ok p.monos GoNum.zero [] h (by simp [GoodL]) (by simp)
  have h3 := simplifyFold_noMatch p.monos GoNum.zero [] h (by simp [GoodL]) (by simp)
    List.Pairwise.nil hst
  rw [Poly.simplify_eq (GoodL.check hne h) hst] at hq
  simp only [Except.ok.injEq] at hq
  subst hq
  refine ⟨(simplifyList_good h1).2, ?_⟩
  simp only
  unfold simplifyList simplifyOut
  have hf : ∀ m ∈ st.2.filter (fun m => !GoNum.feq m.coeff GoNum.zero),
      m.vars ≠ [] ∧ GoNum.feq m.coeff GoNum.zero = false := by
    intro m hm
    rw [List.mem_filter] at hm
    exact ⟨h2 m hm.1, by simpa using hm.2⟩
  have hn : NoMatch (st.2.filter (fun m => !GoNum.feq m.coeff GoNum.zero)) :=
    List.Pairwise.sublist (List.Sublist.map _ List.filter_sublist) h3
  generalize st.2.filter (fun m => !GoNum.feq m.coeff GoNum.zero) = f at hf hn
  cases f with
  | nil =>
    left
    by_cases h : GoNum.feq st.1 GoNum.zero = true
    · exact ⟨GoNum.zero, by simp [h]⟩
    · exact ⟨st.1, by simp [h]⟩
  | cons a l =>
    right
    refine ⟨a :: l, by simp, hf, hn, ?_⟩
    by_cases h : GoNum.feq st.1 GoNum.zero = true
    · left; simp [h]
    · right; exact ⟨st.1, by simpa using h, by simp [h]⟩

theorem simplifyFold_append (l : List (Mono R)) (c : R) (nc : List (Mono R))
    (hl : ∀ m ∈ nc ++ l, m.exps.length = m.vars.length) (hv : ∀ m ∈ l, m.vars ≠ [])
    (hp : NoMatch (nc ++ l)) : l.foldlM simplifyStep (c, nc) = .ok (c, nc ++ l) := by
  induction l generalizing nc with
  | nil => simp [Go.pure_eq]
  | cons a l ih =>
    rw [List.foldlM_cons]
    have hc : a.isConstant = false := by
      have := hv a (by simp)
      simpa [Mono.isConstant] using this
    have hins : insertMono a nc = .ok (nc ++ [a]) := by
      apply insertMono_append (hl a (by simp)) nc (fun e he => hl e (by simp [he]))
      intro e he
      have hp' := hp
      unfold NoMatch at hp'
      rw [List.map_append, List.pairwise_append] at hp'
      exact hp'.2.2 _ (List.mem_map_of_mem he) _ (by simp)
    have hs : simplifyStep (c, nc) a = .ok (c, nc ++ [a]) := by
      unfold simplifyStep
      simp only [hc, Bool.false_eq_true, if_false, hins, Go.ok_bind]
      rfl
    rw [hs, Go.ok_bind, ih (nc ++ [a]) (by simpa using hl) (fun m hm => hv m (by simp [hm]))
      (by simpa using hp)]
    simp

theorem NF.ne {l : List (Mono R)} (h : NF P D l) : l ≠ [] := by
  rcases h.form with ⟨c, rfl⟩ | ⟨nc, hne, -, -, rfl | ⟨c, -, rfl⟩⟩
  · simp
  · exact hne
  · simp

/-- In a normal form, at most one term is the linear term of a given variable. -/
theorem NF.linear_unique {l : List (Mono R)} (h : NF P D l) (i : ℕ) :
    (l.map Mono.shape).Pairwise (fun a b => ¬ (a.2 = [1] ∧ a.1.map (·.id) = [i] ∧
      b.2 = [1] ∧ b.1.map (·.id) = [i])) := by
  have key : ∀ nc : List (Mono R), NoMatch nc → (nc.map Mono.shape).Pairwise
      (fun a b => ¬ (a.2 = [1] ∧ a.1.map (·.id) = [i] ∧ b.2 = [1] ∧ b.1.map (·.id) = [i])) := by
    intro nc hnc
    refine List.Pairwise.imp ?_ hnc
    rintro a b hab ⟨h1, h2, h3, h4⟩
    apply hab
    refine ⟨?_, by rw [h1, h3], ?_⟩
    · have e1 := congrArg List.length h2
      have e2 := congrArg List.length h4
      simp only [List.length_map, List.length_cons, List.length_nil] at e1 e2
      rw [e1, e2]
    · intro v hv
      rw [h4, ← h2]
      exact List.mem_map_of_mem hv
  rcases h.form with ⟨c, rfl⟩ | ⟨nc, -, -, hn, rfl | ⟨c, -, rfl⟩⟩
  · simp
  · exact key _ hn
  · rw [List.map_cons, List.pairwise_cons]
    refine ⟨?_, key _ hn⟩
    rintro b - ⟨h1, -, -, -⟩
    simp [Mono.shape, kToMono] at h1

/-- Every `Plus` ends with a simplification of a well-formed expression. -/
theorem Scalar.plus_ends {a b : Scalar R} (ha : Good P D a) (hb : Good P D b) :
    ∃ s, Good P D s ∧ a.plus b = s.asSimplified := by
  have bind_case : ∀ x : Go (Scalar R), Go.Ok x (Good P D) →
      ∃ s, Good P D s ∧ (x >>= fun y => y.asSimplified) = s.asSimplified := by
    rintro x ⟨s, rfl, hs⟩
    exact ⟨s, hs, rfl⟩
  have polyK : ∀ p c, Good P D (.poly p) → ∃ s, Good P D s ∧ p.plusK c = s.asSimplified := by
    intro p c hp
    refine ⟨.poly ⟨plusKList p.monos c⟩, plusKList_good hp.2 hp.1 c, ?_⟩
    exact Poly.plusK_eq (GoodL.check hp.1 hp.2) c
  have polyVar : ∀ p v, Good P D (.poly p) → Good P D (.var v) →
      ∃ s, Good P D s ∧ p.plusVar v = s.asSimplified := by
    intro p v hp hv
    refine ⟨.poly ⟨plusVarList p.monos v⟩, plusVarList_good hp.2 hp.1 hv.1 hv.2.1 hv.2.2, ?_⟩
    exact Poly.plusVar_eq hp.1 hp.2 hv.1
  have polyPoly : ∀ p q, Good P D (.poly p) → Good P D (.poly q) →
      ∃ s, Good P D s ∧ p.plusPoly q = s.asSimplified := by
    intro p q hp hq
    unfold Poly.plusPoly
    rw [GoodL.check hp.1 hp.2, GoodL.check hq.1 hq.2, Go.ok_bind, Go.ok_bind]
    exact bind_case _ (Poly.asSimplified_good (by simp [hp.1]) (goodL_append hp.2 hq.2))
  have polyMono : ∀ p m, Good P D (.poly p) → GoodM P D m →
      ∃ s, Good P D s ∧ p.plusMono m = s.asSimplified := by
    intro p m hp hm
    unfold Poly.plusMono
    rw [GoodL.check hp.1 hp.2, hm.canon.check, Go.ok_bind, Go.ok_bind]
    exact bind_case _ (Poly.plusPoly_good hp (Mono.toPoly_good hm))
  have monoAny : ∀ m e, GoodM P D m → Good P D e →
      ∃ s, Good P D s ∧ m.plus e = s.asSimplified := by
    intro m e hm he
    unfold Mono.plus
    rw [hm.canon.check, he.check, Go.ok_bind, Go.ok_bind]
    cases e with
    | k c =>
      simp only [Go.pure_eq, Go.ok_bind]
      split
      · exact ⟨.k _, trivial, rfl⟩
      · exact ⟨_, good_pair hm (goodM_const c), rfl⟩
    | var v =>
      simp only [Go.pure_eq, Go.ok_bind]
      rw [Mono.isDegreeOne_ok hm.canon.len he.1, Go.ok_bind]
      split
      · exact ⟨.mono { m with coeff := GoNum.add m.coeff GoNum.one }, hm.congr rfl rfl, rfl⟩
      · exact ⟨_, good_pair hm (goodM_var he.1 he.2.1 he.2.2 _), rfl⟩
    | mono r =>
      simp only [Go.pure_eq, Go.ok_bind]
      rw [Mono.matches_ok hm.canon.len he.canon.len, Go.ok_bind]
      split
      · exact ⟨.mono { m with coeff := GoNum.add m.coeff r.coeff }, hm.congr rfl rfl, rfl⟩
      · exact ⟨_, good_pair hm he, rfl⟩
    | poly p => exact bind_case _ (Poly.plusMono_good he hm)
  have varAny : ∀ v e, Good P D (.var v) → Good P D e →
      ∃ s, Good P D s ∧ v.plus e = s.asSimplified := by
    intro v e hv he
    have gv : GoodM P D v.toMono := goodM_var hv.1 hv.2.1 hv.2.2 _
    unfold Var.plus
    rw [hv.1.check, Go.ok_bind]
    cases e with
    | k c =>
      simp only [Go.pure_eq, Go.ok_bind]
      exact ⟨_, good_pair gv (goodM_const c), rfl⟩
    | var w =>
      simp only [Go.pure_eq, Go.ok_bind]
      split
      · exact ⟨.mono _, goodM_var hv.1 hv.2.1 hv.2.2 _, rfl⟩
      · exact ⟨_, good_pair gv (goodM_var he.1 he.2.1 he.2.2 _), rfl⟩
    | mono m => exact bind_case _ (Mono.plus_good he hv)
    | poly p => exact bind_case _ (Poly.plusVar_good he hv)
  cases a with
  | k c =>
    show ∃ s, Good P D s ∧ kPlus c b = s.asSimplified
    unfold kPlus
    rw [hb.check, Go.ok_bind]
    cases b with
    | k d => exact ⟨.k _, trivial, rfl⟩
    | var v => exact varAny v (.k c) hb trivial
    | mono m => exact monoAny m (.k c) hb trivial
    | poly p => exact polyK p c hb
  | var v => exact varAny v b ha hb
  | mono m => exact monoAny m b ha hb
  | poly p =>
    cases b with
    | k c => exact polyK p c ha
    | var v => exact polyVar p v ha hb
    | mono m => exact polyMono p m ha hb
    | poly q => exact polyPoly p q ha hb

/-- Matching is complete on flat exponent vectors. -/
theorem shapeMatch_of_degs {m r : Mono R} (hm : m.Canon) (hr : r.Canon) (hf : m.degs ∈ flat)
    (h : m.degs = r.degs) : ShapeMatch m.shape r.shape := by
  have hids : ∀ k, k ∈ m.vars.map (·.id) ↔ k ∈ r.vars.map (·.id) := by
    intro k
    rw [← List.mem_toFinset, ← hm.support, h, hr.support, List.mem_toFinset]
  have hlen : m.vars.length = r.vars.length := by
    have h1 := congrArg Finset.card hm.support
    have h2 := congrArg Finset.card hr.support
    rw [List.toFinset_card_of_nodup hm.nodup, List.length_map] at h1
    rw [List.toFinset_card_of_nodup hr.nodup, List.length_map, ← h] at h2
    omega
  refine ⟨hlen, ?_, ?_⟩
  · -- all exponents are equal
    have hval : ∀ (x : Mono R), x.Canon → x.degs = m.degs → ∀ e ∈ x.exps, ∀ k ∈ m.degs.support,
        e = (m.degs k : Int) := by
      intro x hx hxd e he k hk
      obtain ⟨v, hv, hve⟩ := mem_zip_right hx.len he
      have h1 := hx.degs_apply hve
      rw [hxd] at h1
      have hpos := hx.pos e he
      have hvs : v.id ∈ m.degs.support := by
        rw [Finsupp.mem_support_iff, h1]; omega
      have := hf v.id hvs k hk
      omega
    have hlen2 : m.exps.length = r.exps.length := by rw [hm.len, hr.len, hlen]
    apply List.ext_getElem hlen2
    intro i h1 h2
    have hvs : 0 < m.vars.length := by have := hm.len; omega
    have hk : (m.vars[0]).id ∈ m.degs.support := by
      rw [hm.support, List.mem_toFinset]
      exact List.mem_map_of_mem (List.getElem_mem _)
    show m.exps[i] = r.exps[i]
    rw [hval m hm rfl _ (List.getElem_mem h1) _ hk, hval r hr h.symm _ (List.getElem_mem h2) _ hk]
  · intro v hv
    exact (hids v.id).mp (List.mem_map_of_mem hv)

theorem NF.degs_nodup (hD : D ⊆ flat) {l : List (Mono R)} (h : NF P D l) :
    (l.map Mono.degs).Nodup := by
  have key : ∀ nc : List (Mono R), GoodL P D nc → (∀ m ∈ nc, m.vars ≠ []) → NoMatch nc →
      (nc.map Mono.degs).Nodup := by
    intro nc
    induction nc with
    | nil => simp
    | cons a nc ih =>
      intro hg hv hn
      unfold NoMatch at hn
      rw [List.map_cons, List.pairwise_cons] at hn
      rw [List.map_cons, List.nodup_cons]
      refine ⟨?_, ih (fun m hm => hg m (by simp [hm])) (fun m hm => hv m (by simp [hm])) hn.2⟩
      intro hmem
      obtain ⟨b, hb, hbd⟩ := List.mem_map.mp hmem
      have ga := hg a (by simp)
      have gb := hg b (by simp [hb])
      refine hn.1 b.shape (List.mem_map_of_mem hb)
        (shapeMatch_of_degs ga.canon gb.canon ?_ hbd.symm)
      rcases ga.degs with h | h
      · exact absurd h (hv a (by simp))
      · exact hD h
  rcases h.form with ⟨c, rfl⟩ | ⟨nc, -, hv, hn, rfl | ⟨c, -, rfl⟩⟩
  · simp
  · exact key _ h.good (fun m hm => (hv m hm).1) hn
  · have hg : GoodL P D nc := fun m hm => h.good m (by simp [hm])
    rw [List.map_cons, List.nodup_cons]
    refine ⟨?_, key _ hg (fun m hm => (hv m hm).1) hn⟩
    intro hmem
    obtain ⟨b, hb, hbd⟩ := List.mem_map.mp hmem
    have : b.degs = 0 := hbd
    exact (hv b hb).1 ((hg b hb).canon.degs_eq_zero.mp this)

end Struct

section Value

open MvPolynomial

variable {R : Type} [Field R] [LinearOrder R]
variable {P : Var R → Prop} {D : Set (ℕ →₀ ℕ)}

/-- Coefficients of a sum of terms with distinct exponent vectors. -/
theorem coeff_lden {l : List (Mono R)} (h : (l.map Mono.degs).Nodup) {m : Mono R} (hm : m ∈ l) :
    coeff m.degs (lden l) = m.coeff := by
  induction l with
  | nil => simp at hm
  | cons a l ih =>
    rw [List.map_cons, List.nodup_cons] at h
    have hz : ∀ (d : ℕ →₀ ℕ) (l : List (Mono R)), d ∉ l.map Mono.degs → coeff d (lden l) = 0 := by
      intro d l hd
      induction l with
      | nil => simp
      | cons b l ih =>
        simp only [List.map_cons, List.mem_cons, not_or] at hd
        rw [lden_cons, coeff_add, ih hd.2, add_zero]
        unfold Mono.den
        rw [coeff_monomial, if_neg (fun h => hd.1 h.symm)]
    rw [lden_cons, coeff_add]
    rcases List.mem_cons.mp hm with rfl | hm
    · rw [hz _ _ h.1, add_zero]
      unfold Mono.den
      rw [coeff_monomial, if_pos rfl]
    · rw [ih h.2 hm]
      unfold Mono.den
      rw [coeff_monomial, if_neg, zero_add]
      intro he
      exact h.1 (he ▸ List.mem_map_of_mem hm)

theorem coeff_lden_notMem {l : List (Mono R)} {d : ℕ →₀ ℕ} (hd : d ∉ l.map Mono.degs) :
    coeff d (lden l) = 0 := by
  induction l with
  | nil => simp
  | cons b l ih =>
    simp only [List.map_cons, List.mem_cons, not_or] at hd
    rw [lden_cons, coeff_add, ih hd.2, add_zero]
    unfold Mono.den
    rw [coeff_monomial, if_neg (fun h => hd.1 h.symm)]

theorem NF.coeff_ne_zero {l : List (Mono R)} (h : NF P D l) (hl : l ≠ [kToMono 0]) {m : Mono R}
    (hm : m ∈ l) : m.coeff ≠ 0 := by
  rcases h.form with ⟨c, rfl⟩ | ⟨nc, -, hv, -, rfl | ⟨c, hc, rfl⟩⟩
  · rw [List.mem_singleton] at hm
    subst hm
    intro h0
    apply hl
    simp only [kToMono] at h0 ⊢
    rw [h0]
  · simpa using (hv m hm).2
  · rcases List.mem_cons.mp hm with rfl | hm
    · simpa [kToMono] using hc
    · simpa using (hv m hm).2

/-- Simplifying a normal form changes nothing. -/
theorem NF.simplify_fix {l : List (Mono R)} (h : NF P D l) : Poly.simplify ⟨l⟩ = .ok ⟨l⟩ := by
  have hc : (Poly.mk l).check = .ok () := GoodL.check h.ne h.good
  have hlen : ∀ m ∈ l, m.exps.length = m.vars.length := fun m hm => (h.good m hm).canon.len
  rcases h.form with ⟨c, rfl⟩ | ⟨nc, hne, hv, hn, rfl | ⟨c, hcz, rfl⟩⟩
  · rw [Poly.simplify_eq hc (st := (0 + c, [])) (by
      simp [simplifyStep, Mono.isConstant, kToMono, Go.pure_eq, Go.ok_bind])]
    congr 2
    unfold simplifyList simplifyOut
    by_cases h0 : c = 0
    · simp [h0]
    · simp [h0]
  · rw [Poly.simplify_eq hc (st := (0, l)) (by
      rw [gn_zero, simplifyFold_append l 0 [] (by simpa using hlen) (fun m hm => (hv m hm).1)
        (by simpa using hn)]
      simp)]
    congr 2
    have hfil : l.filter (fun m => !GoNum.feq m.coeff GoNum.zero) = l := by
      rw [List.filter_eq_self]
      intro m hm
      rw [(hv m hm).2]; rfl
    unfold simplifyList simplifyOut
    rw [hfil]
    simp [hne]
  · rw [Poly.simplify_eq hc (st := (0 + c, nc)) (by
      rw [List.foldlM_cons]
      have : simplifyStep (GoNum.zero, []) (kToMono c) = .ok ((0 : R) + c, []) := by
        simp [simplifyStep, Mono.isConstant, kToMono, Go.pure_eq]
      rw [this, Go.ok_bind, simplifyFold_append nc _ [] (by
        simpa using fun m hm => hlen m (List.mem_cons_of_mem _ hm)) (fun m hm => (hv m hm).1)
        (by simpa using hn)]
      simp)]
    congr 2
    have hfil : nc.filter (fun m => !GoNum.feq m.coeff GoNum.zero) = nc := by
      rw [List.filter_eq_self]
      intro m hm
      rw [(hv m hm).2]; rfl
    unfold simplifyList simplifyOut
    rw [hfil]
    have hc0 : c ≠ 0 := by simpa using hcz
    simp [hc0]

end Value

end Verif
