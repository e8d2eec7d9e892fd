import Verif.Lemmas.RoundSimp
import Verif.Lemmas.Sound
import Mathlib.Algebra.Module.BigOperators
import Mathlib.Data.Finset.Card

/-!
# What sums do to the written form of terms

`Simplify` compares the variables of two terms as sets and the exponents place by place.  The lemmas follow sums,
differences and multiples for any meaning of written terms that does not tell apart what `Simplify` merges.
-/

set_option linter.unusedSectionVars false

namespace Verif

open MvPolynomial

/-- How a term is written: the IDs of its variables and their exponents, in order. -/
abbrev Writing := List ℕ × List Int

/-- What `MatchesFormOf` sees: the set of variables, and the list of exponents. -/
def Writing.form (w : Writing) : Finset ℕ × List Int := (w.1.toFinset, w.2)

/-- The exponent vector. -/
noncomputable def Writing.degs (w : Writing) : ℕ →₀ ℕ := ((w.1.zip w.2).map fun p => Finsupp.single p.1 p.2.toNat).sum

section
variable {R : Type} [GoNum R]

def Mono.writing (m : Mono R) : Writing := (m.vars.map (·.id), m.exps)

/-- Every term with variables is written in one of the given ways. -/
def Scalar.WrittenIn (W : Set Writing) (s : Scalar R) : Prop := ∀ m ∈ s.terms, m.vars ≠ [] → m.writing ∈ W

theorem Mono.writing_degs (m : Mono R) : m.writing.degs = m.degs := by
  unfold Writing.degs Mono.degs Mono.writing
  rw [List.zip_map_left, List.map_map]
  rfl

theorem Mono.writing_const {m : Mono R} (hm : m.Canon) (h : m.vars = []) : m.writing = ([], []) := by
  unfold Mono.writing
  rw [h, hm.exps_nil.mpr h]
  rfl

theorem shape_form {m r : Mono R} (hm : m.Canon) (h : ShapeMatch m.shape r.shape) :
    m.writing.form = r.writing.form := by
  obtain ⟨h1, h2, h3⟩ := h
  refine Prod.ext (Finset.eq_of_subset_of_card_le ?_ ?_) h2
  · intro i hi
    obtain ⟨v, hv, rfl⟩ := List.mem_map.mp (List.mem_toFinset.mp hi)
    exact List.mem_toFinset.mpr (h3 v hv)
  · refine (List.toFinset_card_le _).trans ?_
    show _ ≤ (m.vars.map (·.id)).toFinset.card
    rw [List.toFinset_card_of_nodup hm.nodup]
    show (r.vars.map (·.id)).length ≤ _
    rw [List.length_map, List.length_map]
    exact h1.symm.le

/-- Well-formed terms, written as in `W`. -/
def GoodW (W : Set Writing) (l : List (Mono R)) : Prop := ∀ m ∈ l, m.Canon ∧ (m.vars ≠ [] → m.writing ∈ W)

theorem GoodW.univ {W : Set Writing} {l : List (Mono R)} (h : GoodW W l) : GoodL (fun _ => True) Set.univ l :=
  fun m hm => ⟨(h m hm).1, fun _ _ => trivial, Or.inr trivial⟩

theorem Scalar.terms_canon {s : Scalar R} (h : s.Canon) : ∀ m ∈ s.terms, m.Canon := by
  cases s with
  | k c => intro m hm; rw [List.mem_singleton.mp hm]; exact (goodM_const (P := fun _ => True) (D := Set.univ) c).canon
  | var v =>
    intro m hm
    rw [List.mem_singleton.mp hm]
    exact (goodM_var (P := fun _ => True) (D := Set.univ) h trivial trivial _).canon
  | mono m => intro m' hm; rw [List.mem_singleton.mp hm]; exact h
  | poly p => exact h.2

theorem goodW_of {W : Set Writing} {s : Scalar R} (h : s.Canon) (hw : s.WrittenIn W) : GoodW W s.terms :=
  fun m hm => ⟨s.terms_canon h m hm, hw m hm⟩

theorem goodW_const {W : Set Writing} (c : R) : GoodW W [kToMono c] := goodW_of (s := .k c) trivial (by
  intro m hm h
  rw [List.mem_singleton.mp hm] at h
  exact absurd rfl h)

theorem GoodW.append {W : Set Writing} {l l' : List (Mono R)} (h : GoodW W l) (h' : GoodW W l') : GoodW W (l ++ l') := by
  intro m hm
  rcases List.mem_append.mp hm with hm | hm
  · exact h m hm
  · exact h' m hm

theorem GoodW.congr {W : Set Writing} {l l' : List (Mono R)} (h : GoodW W l)
    (h' : ∀ m ∈ l', ∃ m' ∈ l, m.vars = m'.vars ∧ m.exps = m'.exps) : GoodW W l' := by
  intro m hm
  obtain ⟨m', hm', e1, e2⟩ := h' m hm
  obtain ⟨h1, h2⟩ := h m' hm'
  refine ⟨(GoodM.congr (P := fun _ => True) (D := Set.univ) ⟨h1, fun _ _ => trivial, Or.inr trivial⟩ e1 e2).canon, ?_⟩
  unfold Mono.writing
  rw [e1, e2]
  exact h2

theorem GoodW.modify {W : Set Writing} {l : List (Mono R)} (h : GoodW W l) (i : ℕ) (f : R → R) :
    GoodW W (l.modify i fun m => { m with coeff := f m.coeff }) := by
  refine h.congr fun m hm => ?_
  obtain ⟨j, hj, rfl⟩ := List.mem_iff_getElem.mp hm
  have hj' : j < l.length := by simpa using hj
  refine ⟨l[j], List.getElem_mem _, ?_⟩
  rw [List.getElem_modify]
  split <;> exact ⟨rfl, rfl⟩

end

section
variable {R : Type} [Field R] [LinearOrder R] {M : Type} [AddCommGroup M] [Module R M]
variable {W : Set Writing} {μ : Writing → M}

/-- `μ` does not tell apart what `Simplify` merges. -/
def Respects (W : Set Writing) (μ : Writing → M) : Prop := ∀ w ∈ W, ∀ w' ∈ W, w.form = w'.form → μ w = μ w'

/-- The meaning of a list of terms. -/
def llin (μ : Writing → M) (l : List (Mono R)) : M := (l.map fun m => m.coeff • μ m.writing).sum

def Scalar.lin (μ : Writing → M) (s : Scalar R) : M := llin μ s.terms

theorem llin_nil : llin μ ([] : List (Mono R)) = 0 := rfl

theorem llin_cons (m : Mono R) (l : List (Mono R)) : llin μ (m :: l) = m.coeff • μ m.writing + llin μ l := by
  simp [llin]

theorem llin_append (l l' : List (Mono R)) : llin μ (l ++ l') = llin μ l + llin μ l' := by
  simp [llin]

theorem llin_const (c : R) : llin μ [kToMono c] = c • μ ([], []) := by
  rw [llin_cons, llin_nil, add_zero]
  rfl

/-- Well formed, written as in `W`, and of the given meaning. -/
structure SemW (W : Set Writing) (μ : Writing → M) (f : M) (s : Scalar R) : Prop where
  canon : s.Canon
  written : s.WrittenIn W
  lin : s.lin μ = f

theorem SemW.good {f : M} {s : Scalar R} (h : SemW W μ f s) : Good (fun _ => True) Set.univ s := good_of_univ h.canon

theorem SemW.goodW {f : M} {s : Scalar R} (h : SemW W μ f s) : GoodW W s.terms := goodW_of h.canon h.written

theorem semW_k (c : R) : SemW W μ (c • μ ([], [])) (.k c) :=
  ⟨trivial, fun m hm h => absurd (by rw [List.mem_singleton.mp hm]; rfl) h, llin_const c⟩

theorem semW_poly {l : List (Mono R)} (hne : l ≠ []) (h : GoodW W l) : SemW W μ (llin μ l) (.poly ⟨l⟩) :=
  ⟨⟨hne, fun m hm => (h m hm).1⟩, fun m hm => (h m hm).2, rfl⟩

theorem semW_mono {m : Mono R} (h : GoodW W [m]) : SemW W μ (llin μ [m]) (.mono m) :=
  ⟨(h m (by simp)).1, fun m' hm => (h m' hm).2, rfl⟩

/-! ## Simplification -/

theorem insertMono_llin (hμ : Respects W μ) {m : Mono R} (hm : m.Canon) (hw : m.writing ∈ W) (es : List (Mono R))
    (hes : GoodW W es) (hv : ∀ e ∈ es, e.vars ≠ []) {out} (h : insertMono m es = .ok out) :
    llin μ out = m.coeff • μ m.writing + llin μ es := by
  induction es generalizing out with
  | nil =>
    simp only [insertMono, Go.pure_eq, Except.ok.injEq] at h
    subst h; simp [llin]
  | cons e es ih =>
    have he := hes e (by simp)
    unfold insertMono at h
    rw [Mono.matches_shape he.1.len hm.len, Go.ok_bind] at h
    by_cases hb : ShapeMatch e.shape m.shape
    · simp only [hb, decide_true, if_true, Go.pure_eq, Except.ok.injEq, gn_add] at h
      subst h
      have := hμ _ (he.2 (hv e (by simp))) _ hw (shape_form he.1 hb)
      rw [llin_cons, llin_cons]
      show (e.coeff + m.coeff) • μ e.writing + _ = _
      rw [add_smul, ← this]
      abel
    · simp only [hb, decide_false, Bool.false_eq_true, if_false] at h
      obtain ⟨o, ho, h⟩ := Go.bind_eq_ok.mp h
      simp only [Go.pure_eq, Except.ok.injEq] at h
      subst h
      rw [llin_cons, llin_cons, ih (fun x hx => hes x (by simp [hx])) (fun x hx => hv x (by simp [hx])) ho]
      abel

theorem simplifyFold_llin (hμ : Respects W μ) (l : List (Mono R)) (c : R) (nc : List (Mono R))
    (hl : GoodW W l) (hnc : GoodW W nc) (hv : ∀ m ∈ nc, m.vars ≠ []) {st}
    (h : l.foldlM simplifyStep (c, nc) = .ok st) :
    GoodW W st.2 ∧ st.1 • μ ([], []) + llin μ st.2 = llin μ l + c • μ ([], []) + llin μ nc := by
  induction l generalizing c nc with
  | nil =>
    simp only [List.foldlM_nil, Go.pure_eq, Except.ok.injEq] at h
    subst h; simp [llin, hnc]
  | cons a l ih =>
    rw [List.foldlM_cons] at h
    obtain ⟨⟨c', nc'⟩, h1, h2⟩ := Go.bind_eq_ok.mp h
    have ha := hl a (by simp)
    have hl' : GoodW W l := fun m hm => hl m (by simp [hm])
    unfold simplifyStep at h1
    by_cases hc : a.isConstant
    · rw [if_pos hc] at h1
      simp only [Go.pure_eq, Except.ok.injEq, Prod.mk.injEq, gn_add] at h1
      obtain ⟨rfl, rfl⟩ := h1
      have e : a.vars = [] := by simpa [Mono.isConstant] using hc
      obtain ⟨i1, i2⟩ := ih _ nc hl' hnc hv h2
      refine ⟨i1, i2.trans ?_⟩
      rw [llin_cons, Mono.writing_const ha.1 e, add_smul]
      abel
    · rw [if_neg hc] at h1
      have hav : a.vars ≠ [] := by
        intro h; apply hc; simp [Mono.isConstant, h]
      obtain ⟨o, ho, h1⟩ := Go.bind_eq_ok.mp h1
      simp only [Go.pure_eq, Except.ok.injEq, Prod.mk.injEq] at h1
      obtain ⟨rfl, rfl⟩ := h1
      obtain ⟨out, ho', -, ho1, -⟩ := insertMono_ok ha.1.len nc (fun e he => (hnc e he).1.len)
      rw [ho, Except.ok.injEq] at ho'
      subst ho'
      have g : GoodW W (a :: nc) := by
        intro m hm
        rcases List.mem_cons.mp hm with rfl | hm
        · exact ha
        · exact hnc m hm
      have hv' : ∀ m ∈ o, m.vars ≠ [] := by
        intro m hm
        obtain ⟨y, hy, e, -⟩ := ho1 m hm
        rw [e]
        rcases List.mem_cons.mp hy with rfl | hy
        · exact hav
        · exact hv y hy
      obtain ⟨i1, i2⟩ := ih _ o hl' (g.congr ho1) hv' h2
      refine ⟨i1, i2.trans ?_⟩
      rw [insertMono_llin hμ ha.1 (ha.2 hav) nc hnc hv ho, llin_cons]
      abel

theorem llin_filter_ne_zero (l : List (Mono R)) :
    llin μ (l.filter (fun m => !GoNum.feq m.coeff GoNum.zero)) = llin μ l := by
  induction l with
  | nil => rfl
  | cons a l ih =>
    rw [List.filter_cons]
    by_cases h : a.coeff = 0
    · simp only [gn_feq, gn_zero, h, decide_true, Bool.not_true, Bool.false_eq_true, if_false,
        llin_cons, zero_smul, zero_add]
      simpa using ih
    · simp only [gn_feq, gn_zero, h, decide_false, Bool.not_false, if_true, llin_cons]
      rw [← ih]
      simp

theorem simplifyList_llin (st : R × List (Mono R)) :
    llin μ (simplifyList st) = st.1 • μ ([], []) + llin μ st.2 := by
  have h : llin μ (simplifyOut st) = st.1 • μ ([], []) + llin μ st.2 := by
    unfold simplifyOut
    rw [llin_append, llin_filter_ne_zero]
    by_cases h : st.1 = 0
    · simp [h, llin_nil]
    · simp [h, llin_const]
  unfold simplifyList
  split
  · rename_i he
    rw [List.isEmpty_iff] at he
    rw [he] at h
    rw [← h, llin_const]
    simp [llin_nil]
  · exact h

theorem Poly.simplify_llin (hμ : Respects W μ) {p q : Poly R} (hne : p.monos ≠ []) (h : GoodW W p.monos)
    (hq : p.simplify = .ok q) : GoodW W q.monos ∧ llin μ q.monos = llin μ p.monos := by
  obtain ⟨st, hst, h1, -⟩ := simplifyFold_ok p.monos GoNum.zero [] h.univ (by simp [GoodL]) (by simp)
  rw [Poly.simplify_eq (GoodL.check hne h.univ) hst] at hq
  simp only [Except.ok.injEq] at hq
  subst hq
  obtain ⟨i1, i2⟩ := simplifyFold_llin hμ p.monos _ [] h (by intro m hm; cases hm) (by simp) hst
  refine ⟨?_, ?_⟩
  · show GoodW W (simplifyList st)
    rcases simplifyList_cases st with ⟨c, e⟩ | ⟨nc, -, hnc, e | e⟩
    · rw [e]; exact goodW_const c
    · rw [e]; exact fun m hm => i1 m (hnc m hm).1
    · rw [e]; exact GoodW.append (goodW_const st.1) (fun m hm => i1 m (hnc m hm).1)
  · show llin μ (simplifyList st) = _
    rw [simplifyList_llin, i2]
    simp [llin_nil]

theorem SimpResult.sem {l : List (Mono R)} (hl : GoodW W l) {r : Scalar R} (h : SimpResult l r) :
    SemW W μ (llin μ l) r := by
  cases h with
  | const c h => rw [h, llin_const]; exact semW_k c
  | var c v h hc =>
    have : c = 1 := by simpa using hc
    have hm := hl _ (by rw [h]; exact List.mem_singleton.mpr rfl)
    refine ⟨hm.1.ok v (by simp), ?_, ?_⟩
    · intro m' hm' _
      rw [List.mem_singleton.mp hm']
      exact hm.2 (by simp)
    · rw [h, this]
      rfl
  | mono m h hv hn => rw [h] at hl ⊢; exact semW_mono hl
  | poly h => exact semW_poly (by intro e; simp [e] at h) hl

theorem Poly.asSimplified_sem (hμ : Respects W μ) {p : Poly R} (hne : p.monos ≠ []) (h : GoodW W p.monos) :
    Go.Ok p.asSimplified (SemW W μ (llin μ p.monos)) :=
  (Poly.asSimplified_ok hne h.univ).mono (fun _ ⟨_, hq, _, _, hr⟩ => by
    obtain ⟨i1, i2⟩ := Poly.simplify_llin hμ hne h hq
    rw [← i2]
    exact hr.sem i1)

theorem Mono.asSimplified_sem {m : Mono R} (h : GoodW W [m]) : Go.Ok m.asSimplified (SemW W μ (llin μ [m])) := by
  have hm := h m (by simp)
  rw [Mono.asSimplified_eq hm.1]
  refine Go.ok_pure ?_
  split
  · rename_i h'
    rw [llin_cons, llin_nil, add_zero, Mono.writing_const hm.1 h']
    exact semW_k _
  · split
    · rename_i h'
      have : m.coeff = 0 := by simpa using h'
      rw [llin_cons, llin_nil, add_zero, this]
      have := semW_k (R := R) (W := W) (μ := μ) 0
      rwa [zero_smul] at this ⊢
    · split
      · rename_i hv _ h1
        rcases m with ⟨c, es, vs⟩
        simp only at hv h1 ⊢
        have hl := hm.1.len
        rcases vs with _ | ⟨v, _ | ⟨w, vs⟩⟩
        · exact absurd rfl hv
        · have e1 : c = 1 := by simpa using h1.1
          obtain rfl := h1.2
          subst e1
          refine ⟨hm.1.ok v (by simp), ?_, rfl⟩
          intro m' hm' _
          rw [List.mem_singleton.mp hm']
          exact hm.2 (by simp)
        · simp [h1.2] at hl
      · exact semW_mono h

theorem Scalar.asSimplified_sem (hμ : Respects W μ) {s : Scalar R} {f : M} (h : SemW W μ f s) :
    Go.Ok s.asSimplified (SemW W μ f) := by
  have hl := h.lin
  cases s with
  | k c => exact Go.ok_pure h
  | var v => exact Go.ok_pure h
  | mono m => rw [← hl]; exact Mono.asSimplified_sem h.goodW
  | poly p => rw [← hl]; exact Poly.asSimplified_sem hμ h.canon.1 h.goodW

/-! ## Plus -/

theorem llin_modify {l : List (Mono R)} {i : ℕ} {m : Mono R} (h : l[i]? = some m) (c : R) :
    llin μ (l.modify i (fun m => { m with coeff := GoNum.add m.coeff c })) = llin μ l + c • μ m.writing := by
  induction l generalizing i with
  | nil => simp at h
  | cons a l ih =>
    cases i with
    | zero =>
      simp only [List.getElem?_cons_zero, Option.some.injEq] at h
      subst h
      simp only [List.modify_zero_cons, llin_cons, gn_add]
      show (a.coeff + c) • μ a.writing + _ = _
      rw [add_smul]
      abel
    | succ i =>
      simp only [List.getElem?_cons_succ] at h
      rw [List.modify_succ_cons, llin_cons, llin_cons, ih h]
      abel

theorem plusKList_llin {l : List (Mono R)} (hl : GoodW W l) (c : R) :
    llin μ (plusKList l c) = llin μ l + c • μ ([], []) := by
  unfold plusKList
  split
  · rw [llin_append, llin_const]
  · rename_i i hi
    obtain ⟨m, hm, hc⟩ := findIdx?_some_getElem hi
    rw [llin_modify hm, Mono.writing_const (hl m (List.mem_of_getElem? hm)).1 (by simpa [Mono.isConstant] using hc)]

theorem plusVarList_llin (l : List (Mono R)) (v : Var R) :
    llin μ (plusVarList l v) = llin μ l + μ ([v.id], [1]) := by
  unfold plusVarList
  split
  · rw [llin_append, llin_cons, llin_nil, add_zero]
    show _ + (1 : R) • _ = _
    rw [one_smul]
    rfl
  · rename_i i hi
    obtain ⟨m, hm, hc⟩ := findIdx?_some_getElem hi
    rw [decide_eq_true_eq] at hc
    rw [llin_modify hm]
    show _ + (1 : R) • μ m.writing = _
    rw [one_smul, show m.writing = ([v.id], [1]) from Prod.ext hc.2 hc.1]

theorem Poly.plusK_sem (hμ : Respects W μ) {p : Poly R} (hne : p.monos ≠ []) (h : GoodW W p.monos) (c : R) :
    Go.Ok (p.plusK c) (SemW W μ (llin μ p.monos + c • μ ([], []))) := by
  rw [Poly.plusK_eq (GoodL.check hne h.univ), ← plusKList_llin h]
  refine Poly.asSimplified_sem hμ (p := ⟨_⟩) (plusKList_good h.univ hne c).1 ?_
  show GoodW W (plusKList p.monos c)
  unfold plusKList
  split
  · exact h.append (goodW_const c)
  · exact h.modify _ (fun x => GoNum.add x c)

theorem Poly.plusVar_sem (hμ : Respects W μ) {p : Poly R} (hne : p.monos ≠ []) (h : GoodW W p.monos) {v : Var R}
    (hv : v.OK) (hw : GoodW W [v.toMono]) :
    Go.Ok (p.plusVar v) (SemW W μ (llin μ p.monos + μ ([v.id], [1]))) := by
  rw [Poly.plusVar_eq hne h.univ hv, ← plusVarList_llin]
  refine Poly.asSimplified_sem hμ (p := ⟨_⟩)
    (plusVarList_good (P := fun _ => True) (D := Set.univ) h.univ hne hv trivial trivial).1 ?_
  show GoodW W (plusVarList p.monos v)
  unfold plusVarList
  split
  · exact h.append hw
  · exact h.modify _ (fun x => GoNum.add x GoNum.one)

theorem Poly.plusPoly_sem (hμ : Respects W μ) {p q : Poly R} (hp : p.monos ≠ []) (h : GoodW W p.monos)
    (hq : q.monos ≠ []) (h' : GoodW W q.monos) :
    Go.Ok (p.plusPoly q) (SemW W μ (llin μ p.monos + llin μ q.monos)) := by
  unfold Poly.plusPoly
  rw [GoodL.check hp h.univ, GoodL.check hq h'.univ, Go.ok_bind, Go.ok_bind, ← llin_append]
  exact (Poly.asSimplified_sem hμ (p := ⟨p.monos ++ q.monos⟩) (by simp [hp]) (h.append h')).bind
    (fun _ h => Scalar.asSimplified_sem hμ h)

theorem Poly.plusMono_sem (hμ : Respects W μ) {p : Poly R} (hne : p.monos ≠ []) (h : GoodW W p.monos) {m : Mono R}
    (hm : GoodW W [m]) : Go.Ok (p.plusMono m) (SemW W μ (llin μ p.monos + llin μ [m])) := by
  unfold Poly.plusMono
  rw [GoodL.check hne h.univ, (hm m (by simp)).1.check, Go.ok_bind, Go.ok_bind]
  exact (Poly.plusPoly_sem hμ hne h (q := m.toPoly) (by simp [Mono.toPoly]) hm).bind
    (fun _ h => Scalar.asSimplified_sem hμ h)

theorem semW_pair {a b : Mono R} (ha : GoodW W [a]) (hb : GoodW W [b]) :
    SemW W μ (llin μ [a] + llin μ [b]) (.poly ⟨[a, b]⟩) := by
  rw [← llin_append]
  exact semW_poly (by simp) (ha.append hb)

theorem Mono.plus_sem (hμ : Respects W μ) {m : Mono R} (hm : GoodW W [m]) {e : Scalar R} {f : M}
    (he : SemW W μ f e) : Go.Ok (m.plus e) (SemW W μ (llin μ [m] + f)) := by
  have cm := (hm m (by simp)).1
  have hl := he.lin
  unfold Mono.plus
  rw [cm.check, he.good.check, Go.ok_bind, Go.ok_bind]
  cases e with
  | k c =>
    have hl : llin μ [kToMono c] = f := hl
    simp only [Go.pure_eq, Go.ok_bind]
    split
    · rename_i hc
      refine Scalar.asSimplified_sem hμ ?_
      have : m.vars = [] := by simpa [Mono.isConstant] using hc
      rw [← hl, llin_const, llin_cons, llin_nil, add_zero, Mono.writing_const cm this, ← add_smul]
      exact semW_k _
    · rw [← hl]
      exact Scalar.asSimplified_sem hμ (semW_pair hm (goodW_const c))
  | var v =>
    have hl : llin μ [v.toMono] = f := hl
    simp only [Go.pure_eq, Go.ok_bind]
    rw [Mono.isDegreeOne_ok cm.len he.canon, Go.ok_bind]
    split
    · rename_i hc
      rw [decide_eq_true_eq] at hc
      refine Scalar.asSimplified_sem (s := .mono _) hμ ?_
      have h1 : GoodW W [{ m with coeff := GoNum.add m.coeff GoNum.one }] := hm.congr (by
        intro m' hm'
        rw [List.mem_singleton.mp hm']
        exact ⟨m, by simp, rfl, rfl⟩)
      have h2 := semW_mono (μ := μ) h1
      have h3 : llin μ [{ m with coeff := GoNum.add m.coeff GoNum.one }] = llin μ [m] + f := by
        rw [← hl, llin_cons, llin_cons, llin_cons, llin_nil, add_zero, add_zero, add_zero]
        show (m.coeff + 1) • μ m.writing = _ + (1 : R) • μ v.toMono.writing
        rw [add_smul, show m.writing = v.toMono.writing from Prod.ext hc.2 hc.1]
      rwa [h3] at h2
    · rw [← hl]
      exact Scalar.asSimplified_sem hμ (semW_pair hm he.goodW)
  | mono r =>
    have hl : llin μ [r] = f := hl
    simp only [Go.pure_eq, Go.ok_bind]
    rw [Mono.matches_shape cm.len he.canon.len, Go.ok_bind]
    by_cases hb : ShapeMatch m.shape r.shape
    · simp only [hb, decide_true, if_true]
      refine Scalar.asSimplified_sem (s := .mono _) hμ ?_
      have h1 : GoodW W [{ m with coeff := GoNum.add m.coeff r.coeff }] := hm.congr (by
        intro m' hm'
        rw [List.mem_singleton.mp hm']
        exact ⟨m, by simp, rfl, rfl⟩)
      have h2 := semW_mono (μ := μ) h1
      have h3 : llin μ [{ m with coeff := GoNum.add m.coeff r.coeff }] = llin μ [m] + f := by
        rw [← hl, llin_cons, llin_cons, llin_cons, llin_nil, add_zero, add_zero, add_zero]
        show (m.coeff + r.coeff) • μ m.writing = _
        rw [add_smul]
        congr 2
        by_cases hv : m.vars = []
        · have hv' : r.vars = [] := by
            have := hb.1
            simpa [Mono.shape, hv] using this.symm
          rw [Mono.writing_const cm hv, Mono.writing_const he.canon hv']
        · have hv' : r.vars ≠ [] := by
            intro h
            have := hb.1
            simp [Mono.shape, h, hv] at this
          exact hμ _ ((hm m (by simp)).2 hv) _ (he.written r (by simp [Scalar.terms]) hv') (shape_form cm hb)
      rwa [h3] at h2
    · simp only [hb, decide_false, Bool.false_eq_true, if_false]
      rw [← hl]
      exact Scalar.asSimplified_sem hμ (semW_pair hm he.goodW)
  | poly p =>
    have hl : llin μ p.monos = f := hl
    refine (Poly.plusMono_sem hμ he.canon.1 he.goodW hm).bind (fun _ h => ?_)
    rw [add_comm, hl] at h
    exact Scalar.asSimplified_sem hμ h

theorem Poly.plus_sem (hμ : Respects W μ) {p : Poly R} (hne : p.monos ≠ []) (hp : GoodW W p.monos) {e : Scalar R}
    {f : M} (he : SemW W μ f e) : Go.Ok (p.plus e) (SemW W μ (llin μ p.monos + f)) := by
  have hl := he.lin
  cases e with
  | k c =>
    have := Poly.plusK_sem hμ hne hp c
    rwa [← llin_const, show llin μ [kToMono c] = f from hl] at this
  | var v =>
    have := Poly.plusVar_sem hμ hne hp he.canon he.goodW
    have e : μ ([v.id], [1]) = f := by
      rw [← hl]
      show _ = (1 : R) • _ + 0
      rw [one_smul, add_zero]
      rfl
    rwa [e] at this
  | mono m => rw [← hl]; exact Poly.plusMono_sem hμ hne hp he.goodW
  | poly q => rw [← hl]; exact Poly.plusPoly_sem hμ hne hp he.canon.1 he.goodW

theorem Var.plus_sem (hμ : Respects W μ) {v : Var R} {g : M} (hv : SemW W μ g (.var v)) {e : Scalar R} {f : M}
    (he : SemW W μ f e) : Go.Ok (v.plus e) (SemW W μ (g + f)) := by
  have hg : llin μ [v.toMono] = g := hv.lin
  have gv : GoodW W [v.toMono] := hv.goodW
  have ov : v.OK := hv.canon
  have hl := he.lin
  unfold Var.plus
  rw [ov.check, Go.ok_bind]
  cases e with
  | k c =>
    have hl : llin μ [kToMono c] = f := hl
    simp only [Go.pure_eq, Go.ok_bind]
    rw [← hg, ← hl]
    exact Scalar.asSimplified_sem hμ (semW_pair gv (goodW_const c))
  | var w =>
    have hl : llin μ [w.toMono] = f := hl
    simp only [Go.pure_eq, Go.ok_bind]
    split
    · rename_i h
      have h1 : GoodW W [⟨GoNum.ofInt 2, [1], [v]⟩] := gv.congr (by
        intro m' hm'
        rw [List.mem_singleton.mp hm']
        exact ⟨_, List.mem_singleton.mpr rfl, rfl, rfl⟩)
      have h2 := semW_mono (μ := μ) h1
      have h3 : llin μ [(⟨GoNum.ofInt 2, [1], [v]⟩ : Mono R)] = g + f := by
        rw [← hg, ← hl, llin_cons, llin_cons, llin_cons, llin_nil, add_zero, add_zero, add_zero]
        show ((2 : Int) : R) • _ = (1 : R) • _ + (1 : R) • _
        have e1 : v.toMono.writing = w.toMono.writing := Prod.ext (by simp [Mono.writing, Var.toMono, h]) rfl
        rw [← e1, ← add_smul, show ((2 : Int) : R) = 1 + 1 by norm_num]
        rfl
      rw [h3] at h2
      exact Scalar.asSimplified_sem (s := .mono _) hμ h2
    · rw [← hg, ← hl]
      exact Scalar.asSimplified_sem hμ (semW_pair gv he.goodW)
  | mono m =>
    have hl : llin μ [m] = f := hl
    refine (Mono.plus_sem hμ he.goodW hv).bind (fun _ h => ?_)
    rw [add_comm, show llin μ [m] = f from hl] at h
    exact Scalar.asSimplified_sem hμ h
  | poly p =>
    refine (Poly.plus_sem hμ he.canon.1 he.goodW hv).bind (fun _ h => ?_)
    rw [add_comm, show llin μ p.monos = f from hl] at h
    exact Scalar.asSimplified_sem hμ h

/-- `Plus` adds the meanings. -/
theorem Scalar.plus_sem (hμ : Respects W μ) {a b : Scalar R} {f g : M} (ha : SemW W μ f a) (hb : SemW W μ g b) :
    Go.Ok (a.plus b) (SemW W μ (f + g)) := by
  cases a with
  | k c =>
    have hl : llin μ [kToMono c] = f := ha.lin
    show Go.Ok (kPlus c b) _
    unfold kPlus
    rw [hb.good.check, Go.ok_bind]
    have hg := hb.lin
    cases b with
    | k d =>
      refine Go.ok_pure ?_
      rw [← hl, ← hg, llin_const, show Scalar.lin μ (Scalar.k d) = d • μ ([], []) from llin_const d, ← add_smul]
      exact semW_k _
    | var v => rw [add_comm]; exact Var.plus_sem hμ hb ha
    | mono m =>
      have := Mono.plus_sem hμ hb.goodW ha
      rwa [add_comm, show llin μ [m] = g from hg] at this
    | poly p =>
      have := Poly.plus_sem hμ hb.canon.1 hb.goodW ha
      rwa [add_comm, show llin μ p.monos = g from hg] at this
  | var v => exact Var.plus_sem hμ ha hb
  | mono m => rw [← ha.lin]; exact Mono.plus_sem hμ ha.goodW hb
  | poly p => rw [← ha.lin]; exact Poly.plus_sem hμ ha.canon.1 ha.goodW hb

/-! ## Multiples and differences -/

theorem llin_mulK (l : List (Mono R)) (c : R) : llin μ (l.map (·.mulK c)) = c • llin μ l := by
  induction l with
  | nil => simp [llin_nil]
  | cons a l ih =>
    rw [List.map_cons, llin_cons, llin_cons, ih, smul_add, smul_smul]
    congr 2
    show a.coeff * c = _
    rw [mul_comm]

theorem GoodW.mulK {l : List (Mono R)} (h : GoodW W l) (c : R) : GoodW W (l.map (·.mulK c)) := by
  refine h.congr fun m hm => ?_
  obtain ⟨m', hm', rfl⟩ := List.mem_map.mp hm
  exact ⟨m', hm', rfl, rfl⟩

theorem Poly.mulK_sem (hμ : Respects W μ) {p : Poly R} (hne : p.monos ≠ []) (h : GoodW W p.monos) (c : R) :
    Go.Ok (p.mulK c) (SemW W μ (c • llin μ p.monos)) := by
  unfold Poly.mulK
  rw [GoodL.check hne h.univ, Go.ok_bind, ← llin_mulK]
  exact Poly.asSimplified_sem (p := ⟨_⟩) hμ (by simpa using hne) (h.mulK c)

/-- A constant times an expression, on either side. -/
theorem Scalar.mul_k_sem (hμ : Respects W μ) {a : Scalar R} {f : M} (ha : SemW W μ f a) (c : R) :
    Go.Ok (a.mul (.k c)) (SemW W μ (c • f)) ∧ Go.Ok (Scalar.mul (.k c) a) (SemW W μ (c • f)) := by
  have hl := ha.lin
  have key : Go.Ok (a.mul (.k c)) (SemW W μ (c • f)) := by
    cases a with
    | k d =>
      refine Go.ok_pure ?_
      rw [← hl, show Scalar.lin μ (Scalar.k d) = d • μ ([], []) from llin_const d, smul_smul, mul_comm]
      exact semW_k _
    | var v =>
      have ov : v.OK := ha.canon
      show Go.Ok (v.mul (.k c)) _
      unfold Var.mul
      rw [ov.check, Go.ok_bind, show (Scalar.k c).check = .ok () from rfl, Go.ok_bind]
      simp only [Go.pure_eq, Go.ok_bind]
      have h1 : GoodW W [⟨c, [1], [v]⟩] := ha.goodW.congr (by
        intro m' hm'
        rw [List.mem_singleton.mp hm']
        exact ⟨_, List.mem_singleton.mpr rfl, rfl, rfl⟩)
      have h2 := semW_mono (μ := μ) h1
      have h3 : llin μ [(⟨c, [1], [v]⟩ : Mono R)] = c • f := by
        rw [← hl]
        show c • _ + 0 = c • ((1 : R) • _ + 0)
        rw [one_smul, add_zero, add_zero]
        rfl
      rw [h3] at h2
      exact Scalar.asSimplified_sem (s := .mono _) hμ h2
    | mono m =>
      show Go.Ok (m.mul (.k c)) _
      unfold Mono.mul
      rw [ha.canon.check, Go.ok_bind, show (Scalar.k c).check = .ok () from rfl, Go.ok_bind]
      refine Go.ok_pure ?_
      have h2 : SemW W μ (llin μ ([m].map (·.mulK c))) (.mono (m.mulK c)) := semW_mono (ha.goodW.mulK c)
      rwa [llin_mulK, show llin μ [m] = f from hl] at h2
    | poly p =>
      have := Poly.mulK_sem hμ ha.canon.1 ha.goodW c
      rwa [show llin μ p.monos = f from hl] at this
  refine ⟨key, ?_⟩
  show Go.Ok (kMul c a) _
  unfold kMul
  rw [ha.good.check, Go.ok_bind]
  cases a with
  | k d =>
    refine Go.ok_pure ?_
    rw [← hl, show Scalar.lin μ (Scalar.k d) = d • μ ([], []) from llin_const d, smul_smul]
    exact semW_k _
  | var v => exact key
  | mono m => exact key
  | poly p => exact key

theorem Scalar.mulF64_sem (hμ : Respects W μ) {a : Scalar R} {f : M} (ha : SemW W μ f a) (c : R) :
    Go.Ok (a.mulF64 c) (SemW W μ (c • f)) := by
  have := (Scalar.mul_k_sem hμ ha c).1
  cases a with
  | k d => exact this
  | mono m => exact this
  | var v => exact this.bind (fun _ h => Scalar.asSimplified_sem hμ h)
  | poly p => exact this.bind (fun _ h => Scalar.asSimplified_sem hμ h)

theorem Scalar.minus_sem (hμ : Respects W μ) {a b : Scalar R} {f g : M} (ha : SemW W μ f a) (hb : SemW W μ g b) :
    Go.Ok (a.minus b) (SemW W μ (f - g)) := by
  unfold Scalar.minus
  rw [ha.good.check, hb.good.check, Go.ok_bind, Go.ok_bind]
  refine (Scalar.mulF64_sem hμ hb negOne).bind (fun s hs => ?_)
  refine (Scalar.plus_sem hμ ha hs).mono (fun t ht => ?_)
  have e : f + (negOne : R) • g = f - g := by
    unfold negOne
    simp [sub_eq_add_neg]
  rwa [e] at ht

end

end Verif
