import Verif.Lemmas.Degs

/-!
# Structure lemmas

Valid for every `GoNum R` (no algebraic laws): on well-formed operands no operation panics, and the
result is well formed with terms drawn from the expected places.
-/

set_option linter.unusedSectionVars false

namespace Verif

variable {R : Type} [GoNum R]

/-- Well-formed monomial whose variables satisfy `P` and whose exponent vector is in `D`. -/
structure GoodM (P : Var R → Prop) (D : Set (ℕ →₀ ℕ)) (m : Mono R) : Prop where
  canon : m.Canon
  vars : ∀ v ∈ m.vars, P v
  degs : m.vars = [] ∨ m.degs ∈ D

def GoodL (P : Var R → Prop) (D : Set (ℕ →₀ ℕ)) (l : List (Mono R)) : Prop := ∀ m ∈ l, GoodM P D m

/-- Well-formed scalar whose variables satisfy `P` and whose terms are in `D`. -/
def Good (P : Var R → Prop) (D : Set (ℕ →₀ ℕ)) : Scalar R → Prop
  | .k _ => True
  | .var v => v.OK ∧ P v ∧ Finsupp.single v.id 1 ∈ D
  | .mono m => GoodM P D m
  | .poly p => p.monos ≠ [] ∧ GoodL P D p.monos

variable {P : Var R → Prop} {D : Set (ℕ →₀ ℕ)}

theorem GoodM.congr {m r : Mono R} (h : GoodM P D m) (hv : r.vars = m.vars) (he : r.exps = m.exps) :
    GoodM P D r := by
  have hd : r.degs = m.degs := by rw [Mono.degs_eq, Mono.degs_eq, hv, he]
  obtain ⟨⟨a, b, c, d⟩, e, f⟩ := h
  exact ⟨⟨by rw [hv, he]; exact a, by rw [he]; exact b, by rw [hv]; exact c, by rw [hv]; exact d⟩,
    by rw [hv]; exact e, by rw [hv, hd]; exact f⟩

theorem goodM_const (c : R) : GoodM P D (kToMono c) :=
  ⟨⟨rfl, by simp [kToMono], by simp [kToMono], by simp [kToMono]⟩, by simp [kToMono], Or.inl rfl⟩

theorem goodM_const' {m : Mono R} (hm : m.Canon) (h : m.vars = []) : GoodM P D m :=
  ⟨hm, by simp [h], Or.inl h⟩

theorem Var.degs_one (v : Var R) (c : R) (e : Int) :
    (Mono.degs ⟨c, [e], [v]⟩) = Finsupp.single v.id e.toNat := by
  simp [Mono.degs]

theorem goodM_var {v : Var R} (hv : v.OK) (hP : P v) (hD : Finsupp.single v.id 1 ∈ D) (c : R) :
    GoodM P D ⟨c, [1], [v]⟩ :=
  ⟨⟨rfl, by simp, by simp, by simpa using hv⟩, by simpa using hP,
    Or.inr (by rw [Var.degs_one]; exact hD)⟩

theorem Var.OK.check {v : Var R} (h : v.OK) : v.check = .ok () := by
  unfold Var.OK at h
  simp [Var.check, h, Go.pure_eq]

theorem Var.check_iff {v : Var R} : v.check = .ok () ↔ v.OK := by
  unfold Var.check Var.OK
  cases h : GoNum.le v.upper v.lower <;> simp [Go.pure_eq, Go.throw_eq]

theorem GoodL.check {p : Poly R} (hne : p.monos ≠ []) (h : GoodL P D p.monos) :
    p.check = .ok () := by
  unfold Poly.check
  rw [if_neg hne]
  exact Go.forM_ok _ _ (fun m hm => (h m hm).canon.check)

theorem Good.check {s : Scalar R} (h : Good P D s) : s.check = .ok () := by
  cases s with
  | k c => rfl
  | var v => exact h.1.check
  | mono m => exact h.canon.check
  | poly p => exact GoodL.check h.1 h.2

/-! ## Predicates -/

theorem Mono.isDegreeOne_ok {m : Mono R} (hm : m.exps.length = m.vars.length) {v : Var R}
    (hv : v.OK) :
    m.isDegreeOne v = .ok (decide (m.exps = [1] ∧ m.vars.map (·.id) = [v.id])) := by
  have c1 : m.check = .ok () := by simp [Mono.check, hm, Go.pure_eq]
  unfold Mono.isDegreeOne
  rw [c1, hv.check, Go.ok_bind, Go.ok_bind]
  rcases m with ⟨c, es, vs⟩
  rcases vs with _ | ⟨w, _ | ⟨w', vs⟩⟩
  · simp [Go.pure_eq]
  · rcases es with _ | ⟨e, _ | ⟨e', es⟩⟩
    · simp at hm
    · simp only [Go.pure_eq]
      congr 1
      by_cases h1 : w.id = v.id <;> by_cases h2 : e = 1 <;> simp [h1, h2]
    · simp at hm
  · simp [Go.pure_eq]

theorem Mono.degree_ok {m : Mono R} (hm : m.exps.length = m.vars.length) :
    m.degree = .ok m.exps.sum := by
  have c1 : m.check = .ok () := by simp [Mono.check, hm, Go.pure_eq]
  unfold Mono.degree
  rw [c1, Go.ok_bind, List.sum_eq_foldl, Go.pure_eq]

theorem sum_pos_of_pos {l : List Int} (h : ∀ e ∈ l, 0 < e) (hne : l ≠ []) : 0 < l.sum := by
  induction l with
  | nil => exact absurd rfl hne
  | cons a l ih =>
    rw [List.sum_cons]
    have := h a (by simp)
    by_cases hl : l = []
    · subst hl; simpa using this
    · have := ih (fun e he => h e (by simp [he])) hl
      omega

theorem sum_nonneg_of_pos {l : List Int} (h : ∀ e ∈ l, 0 < e) : 0 ≤ l.sum := by
  by_cases hl : l = []
  · subst hl; simp
  · exact (sum_pos_of_pos h hl).le

theorem Mono.Canon.exps_nil {m : Mono R} (h : m.Canon) : m.exps = [] ↔ m.vars = [] := by
  rw [← List.length_eq_zero_iff, ← List.length_eq_zero_iff, h.len]

/-- Maximum of the degrees (at least 0). -/
def maxDeg (l : List (Mono R)) : Int := l.foldl (fun d m => max d m.exps.sum) 0

theorem foldl_max_ge (l : List (Mono R)) (d : Int) :
    d ≤ l.foldl (fun d m => max d m.exps.sum) d ∧
    ∀ m ∈ l, m.exps.sum ≤ l.foldl (fun d m => max d m.exps.sum) d := by
  induction l generalizing d with
  | nil => simp
  | cons a l ih =>
    obtain ⟨h1, h2⟩ := ih (max d a.exps.sum)
    rw [List.foldl_cons]
    refine ⟨le_trans (le_max_left _ _) h1, ?_⟩
    intro m hm
    rcases List.mem_cons.mp hm with rfl | hm
    · exact le_trans (le_max_right _ _) h1
    · exact h2 m hm

theorem foldl_max_mem (l : List (Mono R)) (d : Int) :
    l.foldl (fun d m => max d m.exps.sum) d = d ∨
    ∃ m ∈ l, l.foldl (fun d m => max d m.exps.sum) d = m.exps.sum := by
  induction l generalizing d with
  | nil => simp
  | cons a l ih =>
    rw [List.foldl_cons]
    rcases ih (max d a.exps.sum) with h | ⟨m, hm, h⟩
    · rcases max_choice d a.exps.sum with h' | h'
      · exact Or.inl (h.trans h')
      · exact Or.inr ⟨a, by simp, h.trans h'⟩
    · exact Or.inr ⟨m, by simp [hm], h⟩

theorem maxDeg_nonneg (l : List (Mono R)) : 0 ≤ maxDeg l := (foldl_max_ge l 0).1

theorem le_maxDeg {l : List (Mono R)} {m : Mono R} (h : m ∈ l) : m.exps.sum ≤ maxDeg l :=
  (foldl_max_ge l 0).2 m h

theorem maxDeg_mem (l : List (Mono R)) : maxDeg l = 0 ∨ ∃ m ∈ l, maxDeg l = m.exps.sum :=
  foldl_max_mem l 0

theorem Poly.degree_ok {p : Poly R} (hne : p.monos ≠ [])
    (h : ∀ m ∈ p.monos, m.exps.length = m.vars.length) : p.degree = .ok (maxDeg p.monos) := by
  have c : p.check = .ok () := by
    unfold Poly.check
    rw [if_neg hne]
    exact Go.forM_ok _ _ (fun m hm => by simp [Mono.check, h m hm, Go.pure_eq])
  unfold Poly.degree
  rw [c, Go.ok_bind]
  unfold maxDeg
  generalize (0 : Int) = d
  clear hne c
  rcases p with ⟨l⟩
  simp only at h ⊢
  induction l generalizing d with
  | nil => rfl
  | cons a l ih =>
    rw [List.foldlM_cons, Mono.degree_ok (h a (by simp)), List.foldl_cons,
      ← ih _ (fun m hm => h m (List.mem_cons_of_mem _ hm))]
    show (List.foldlM _ (if a.exps.sum > d then a.exps.sum else d) l) = _
    congr 1
    rw [max_def]
    split <;> split <;> omega

/-! ## Simplify -/

theorem insertMono_ok {m : Mono R} (hm : m.exps.length = m.vars.length) (es : List (Mono R))
    (hes : ∀ e ∈ es, e.exps.length = e.vars.length) :
    Go.Ok (insertMono m es) (fun out => out ≠ [] ∧
      (∀ x ∈ out, ∃ y ∈ m :: es, x.vars = y.vars ∧ x.exps = y.exps) ∧
      (∀ y ∈ es, ∃ x ∈ out, x.vars = y.vars ∧ x.exps = y.exps)) := by
  induction es with
  | nil => exact ⟨[m], rfl, by simp, by simp, by simp⟩
  | cons e es ih =>
    unfold insertMono
    rw [Mono.matches_ok (hes e (by simp)) hm, Go.ok_bind]
    split
    · refine Go.ok_pure ⟨by simp, ?_, ?_⟩
      · intro x hx
        rcases List.mem_cons.mp hx with rfl | hx
        · exact ⟨e, by simp, rfl, rfl⟩
        · exact ⟨x, by simp [hx], rfl, rfl⟩
      · intro y hy
        rcases List.mem_cons.mp hy with rfl | hy
        · exact ⟨_, List.mem_cons_self, rfl, rfl⟩
        · exact ⟨y, by simp [hy], rfl, rfl⟩
    · refine (ih (fun x hx => hes x (by simp [hx]))).bind ?_
      rintro out ⟨-, h1, h2⟩
      refine Go.ok_pure ⟨by simp, ?_, ?_⟩
      · intro x hx
        rcases List.mem_cons.mp hx with rfl | hx
        · exact ⟨x, by simp, rfl, rfl⟩
        · obtain ⟨y, hy, hh⟩ := h1 x hx
          rcases List.mem_cons.mp hy with rfl | hy
          · exact ⟨y, by simp, hh⟩
          · exact ⟨y, by simp [hy], hh⟩
      · intro y hy
        rcases List.mem_cons.mp hy with rfl | hy
        · exact ⟨y, by simp, rfl, rfl⟩
        · obtain ⟨x, hx, hh⟩ := h2 y hy
          exact ⟨x, by simp [hx], hh⟩

theorem simplifyFold_ok (l : List (Mono R)) (c : R) (nc : List (Mono R)) (hl : GoodL P D l)
    (hnc : GoodL P D nc) (hv : ∀ m ∈ nc, m.vars ≠ []) :
    Go.Ok (l.foldlM simplifyStep (c, nc)) (fun st => GoodL P D st.2 ∧ ∀ m ∈ st.2, m.vars ≠ []) := by
  apply Go.foldlM_ok simplifyStep (fun st => GoodL P D st.2 ∧ ∀ m ∈ st.2, m.vars ≠ [])
  · exact ⟨hnc, hv⟩
  · rintro ⟨c, nc⟩ m hm ⟨h1, h2⟩
    have hgm := hl m hm
    unfold simplifyStep
    by_cases hc : m.isConstant
    · rw [if_pos hc]
      exact Go.ok_pure ⟨h1, h2⟩
    · rw [if_neg hc]
      have hmv : m.vars ≠ [] := by
        intro h; apply hc; simp [Mono.isConstant, h]
      refine (insertMono_ok hgm.canon.len nc (fun e he => (h1 e he).canon.len)).bind ?_
      rintro out ⟨-, ho, -⟩
      refine Go.ok_pure ⟨?_, ?_⟩
      · intro x hx
        obtain ⟨y, hy, hxv, hxe⟩ := ho x hx
        rcases List.mem_cons.mp hy with rfl | hy
        · exact hgm.congr hxv hxe
        · exact (h1 y hy).congr hxv hxe
      · intro x hx
        obtain ⟨y, hy, hxv, hxe⟩ := ho x hx
        rw [hxv]
        rcases List.mem_cons.mp hy with rfl | hy
        · exact hmv
        · exact h2 y hy

/-- The list built by `Simplify` from the final loop state. -/
def simplifyOut (st : R × List (Mono R)) : List (Mono R) :=
  (if GoNum.feq st.1 GoNum.zero then [] else [kToMono st.1]) ++
    st.2.filter (fun m => !GoNum.feq m.coeff GoNum.zero)

def simplifyList (st : R × List (Mono R)) : List (Mono R) :=
  if (simplifyOut st).isEmpty then [kToMono GoNum.zero] else simplifyOut st

theorem Poly.simplify_eq {p : Poly R} (hc : p.check = .ok ()) {st}
    (hst : p.monos.foldlM simplifyStep (GoNum.zero, []) = .ok st) :
    p.simplify = .ok ⟨simplifyList st⟩ := by
  unfold Poly.simplify
  rw [hc, Go.ok_bind, hst, Go.ok_bind, Go.pure_eq]
  rfl

theorem simplifyList_cases (st : R × List (Mono R)) :
    (∃ c, simplifyList st = [kToMono c]) ∨
    (∃ nc, nc ≠ [] ∧ (∀ m ∈ nc, m ∈ st.2 ∧ GoNum.feq m.coeff GoNum.zero = false) ∧
      (simplifyList st = nc ∨ simplifyList st = kToMono st.1 :: nc)) := by
  unfold simplifyList simplifyOut
  have hf : ∀ m ∈ st.2.filter (fun m => !GoNum.feq m.coeff GoNum.zero),
      m ∈ st.2 ∧ GoNum.feq m.coeff GoNum.zero = false := by
    intro m hm
    simpa using hm
  generalize st.2.filter (fun m => !GoNum.feq m.coeff GoNum.zero) = f at hf
  cases f with
  | nil =>
    left
    by_cases h : GoNum.feq st.1 GoNum.zero = true
    · exact ⟨GoNum.zero, by simp [h]⟩
    · exact ⟨st.1, by simp [h]⟩
  | cons a l =>
    right
    refine ⟨a :: l, by simp, hf, ?_⟩
    by_cases h : GoNum.feq st.1 GoNum.zero = true
    · left; simp [h]
    · right; simp [h]

theorem simplifyList_good {st : R × List (Mono R)} (h : GoodL P D st.2) :
    simplifyList st ≠ [] ∧ GoodL P D (simplifyList st) := by
  rcases simplifyList_cases st with ⟨c, e⟩ | ⟨nc, hne, hnc, e | e⟩
  · rw [e]
    refine ⟨by simp, ?_⟩
    intro m hm
    rw [List.mem_singleton] at hm
    exact hm ▸ goodM_const c
  · rw [e]
    exact ⟨hne, fun m hm => h m (hnc m hm).1⟩
  · rw [e]
    refine ⟨by simp, ?_⟩
    intro m hm
    rcases List.mem_cons.mp hm with rfl | hm
    · exact goodM_const _
    · exact h m (hnc m hm).1

theorem Poly.simplify_ok {p : Poly R} (hne : p.monos ≠ []) (h : GoodL P D p.monos) :
    Go.Ok p.simplify (fun q => q.monos ≠ [] ∧ GoodL P D q.monos) := by
  obtain ⟨st, hst, h1, -⟩ := simplifyFold_ok p.monos GoNum.zero [] h (by simp [GoodL]) (by simp)
  exact ⟨_, Poly.simplify_eq (GoodL.check hne h) hst, simplifyList_good h1⟩

/-- How the result `r` of `AsSimplifiedExpression` relates to the simplified term list `l`. -/
inductive SimpResult (l : List (Mono R)) : Scalar R → Prop
  | const (c : R) (h : l = [kToMono c]) : SimpResult l (.k c)
  | var (c : R) (v : Var R) (h : l = [⟨c, [1], [v]⟩]) (hc : GoNum.feq c GoNum.one = true) :
      SimpResult l (.var v)
  | mono (m : Mono R) (h : l = [m]) (hv : m.vars ≠ [])
      (hn : ¬ (m.exps = [1] ∧ m.vars.length = 1 ∧ GoNum.feq m.coeff GoNum.one = true)) :
      SimpResult l (.mono m)
  | poly (h : 2 ≤ l.length) : SimpResult l (.poly ⟨l⟩)

theorem simplifyList_result {st : R × List (Mono R)} (h : GoodL P D st.2)
    (hv : ∀ m ∈ st.2, m.vars ≠ []) {q : Poly R} (hq : q.monos = simplifyList st) :
    Go.Ok (do
      let d ← q.degree
      if d = 0 then return Scalar.k (← q.constant)
      if d = 1 then
        match q.monos, q.variables with
        | [m], v :: _ =>
          if ← m.isVariable v then return Scalar.var (← m.toVariable)
          return Scalar.mono m
        | [_], [] => throw Err.index
        | _, _ => return Scalar.poly q
      match q.monos with
      | [m] => return Scalar.mono m
      | _ => return Scalar.poly q) (fun r => SimpResult q.monos r) := by
  obtain ⟨hne, hg⟩ := simplifyList_good h
  rw [← hq] at hne hg
  rw [Poly.degree_ok hne (fun m hm => (hg m hm).canon.len), Go.ok_bind]
  rcases simplifyList_cases st with ⟨c, e⟩ | ⟨nc, hnc, hm, e⟩
  · -- constant
    rw [← hq] at e
    have : maxDeg q.monos = 0 := by rw [e]; simp [maxDeg, kToMono]
    rw [if_pos this]
    have hc : q.constant = .ok c := by
      unfold Poly.constant
      rw [GoodL.check hne hg, Go.ok_bind, e]
      simp [Mono.isConstant, kToMono, Go.pure_eq]
    rw [hc, Go.ok_bind]
    exact Go.ok_pure (.const c e)
  · rw [← hq] at e
    obtain ⟨m0, hm0⟩ : ∃ m0, m0 ∈ nc := List.exists_mem_of_ne_nil nc hnc
    have hm0v := hv m0 (hm m0 hm0).1
    have hm0g := h m0 (hm m0 hm0).1
    have hm0q : m0 ∈ q.monos := by rcases e with e | e <;> simp [e, hm0]
    have hpos : 0 < maxDeg q.monos := by
      refine lt_of_lt_of_le ?_ (le_maxDeg hm0q)
      exact sum_pos_of_pos hm0g.canon.pos (by
        intro h; exact hm0v (hm0g.canon.exps_nil.mp h))
    rw [if_neg hpos.ne']
    have hlen : q.monos = [m0] ∨ 2 ≤ q.monos.length := by
      cases hql : q.monos with
      | nil => exact absurd hql hne
      | cons a l =>
        cases l with
        | nil =>
          rw [hql, List.mem_singleton] at hm0q
          left; rw [hm0q]
        | cons b l => right; simp
    rcases hlen with hl | hl
    · -- one monomial
      have hvars : q.variables = m0.vars := by
        unfold Poly.variables
        rw [hl]
        simp only [List.flatMap_cons, List.flatMap_nil, List.append_nil]
        exact uniqueVars_of_nodup hm0g.canon.nodup
      rw [hl, hvars]
      simp only
      cases hm0vars : m0.vars with
      | nil => exact absurd hm0vars hm0v
      | cons v vs =>
        have hvok : v.OK := hm0g.canon.ok v (by simp [hm0vars])
        by_cases hd : maxDeg [m0] = 1
        · rw [if_pos hd]
          simp only
          unfold Mono.isVariable
          rw [hm0g.canon.check, Go.ok_bind, hvok.check, Go.ok_bind,
            Mono.isDegreeOne_ok hm0g.canon.len hvok, Go.ok_bind, Go.pure_eq, Go.ok_bind]
          by_cases hb : (decide (m0.exps = [1] ∧ m0.vars.map (·.id) = [v.id]) &&
              GoNum.feq m0.coeff GoNum.one) = true
          · rw [if_pos hb]
            rw [Bool.and_eq_true, decide_eq_true_eq] at hb
            have htv : m0.toVariable = .ok v := by
              unfold Mono.toVariable
              rw [hm0g.canon.check, Go.ok_bind, hm0vars]
              simp only
              rw [Mono.isDegreeOne_ok hm0g.canon.len hvok, Go.ok_bind]
              simp [hb.1.1, hm0vars] at hb ⊢
              simp [hb.1, Go.pure_eq]
            rw [htv, Go.ok_bind]
            refine Go.ok_pure (.var m0.coeff v ?_ hb.2)
            have : vs = [] := by
              have := hb.1.2
              simpa [hm0vars] using this
            rcases m0 with ⟨c, es, vars⟩
            simp only at hm0vars hb ⊢
            rw [hb.1.1, hm0vars, this]
          · rw [if_neg hb]
            refine Go.ok_pure (.mono m0 rfl hm0v ?_)
            rintro ⟨h1, h2, h3⟩
            apply hb
            rw [Bool.and_eq_true, decide_eq_true_eq]
            refine ⟨⟨h1, ?_⟩, h3⟩
            rw [hm0vars] at h2 ⊢
            have : vs = [] := by simpa using h2
            simp [this]
        · rw [if_neg hd]
          refine Go.ok_pure (.mono m0 rfl hm0v ?_)
          rintro ⟨h1, -, -⟩
          apply hd
          simp [maxDeg, h1]
    · -- at least two monomials
      have hnm : ∀ m, q.monos ≠ [m] := by
        intro m hm
        rw [hm] at hl
        simp at hl
      have hlast : ∀ x : Go (Scalar R), x = .ok (.poly q) →
          Go.Ok x (fun r => SimpResult q.monos r) := by
        intro x hx
        exact ⟨_, hx, .poly hl⟩
      refine hlast _ ?_
      cases hqm : q.monos with
      | nil => exact absurd hqm hne
      | cons a l =>
        cases l with
        | nil => exact absurd hqm (hnm a)
        | cons b l =>
          by_cases hd : maxDeg (a :: b :: l) = 1
          · rw [if_pos hd]; rfl
          · rw [if_neg hd]; rfl

/-- `AsSimplifiedExpression` of a polynomial, in terms of the loop of `Simplify`. -/
theorem Poly.asSimplified_ok {p : Poly R} (hne : p.monos ≠ []) (h : GoodL P D p.monos) :
    Go.Ok p.asSimplified (fun r => ∃ q, p.simplify = .ok q ∧ q.monos ≠ [] ∧
      GoodL P D q.monos ∧ SimpResult q.monos r) := by
  obtain ⟨st, hst, h1, h2⟩ := simplifyFold_ok p.monos GoNum.zero [] h (by simp [GoodL]) (by simp)
  have hs := Poly.simplify_eq (GoodL.check hne h) hst
  unfold Poly.asSimplified
  rw [hs, Go.ok_bind]
  refine (simplifyList_result h1 h2 (q := ⟨simplifyList st⟩) rfl).mono ?_
  intro r hr
  exact ⟨_, rfl, (simplifyList_good h1).1, (simplifyList_good h1).2, hr⟩

theorem SimpResult.good {l : List (Mono R)} {r : Scalar R} (h : SimpResult l r)
    (hl : GoodL P D l) : Good P D r := by
  cases h with
  | const c h => trivial
  | var c v h hc =>
    have := hl _ (by rw [h]; exact List.mem_singleton.mpr rfl)
    refine ⟨this.canon.ok v (by simp), this.vars v (by simp), ?_⟩
    rcases this.degs with h | h
    · simp at h
    · rwa [Var.degs_one] at h
  | mono m h hv hn => exact hl m (by simp [h])
  | poly h => exact ⟨by intro e; simp at e; simp [e] at h, hl⟩

theorem Poly.asSimplified_good {p : Poly R} (hne : p.monos ≠ []) (h : GoodL P D p.monos) :
    Go.Ok p.asSimplified (Good P D) :=
  (Poly.asSimplified_ok hne h).mono (fun _ ⟨_, _, _, hg, hr⟩ => hr.good hg)

/-- `AsSimplifiedExpression` of a well-formed monomial. -/
theorem Mono.asSimplified_eq {m : Mono R} (hm : m.Canon) :
    m.asSimplified = .ok (
      if m.vars = [] then .k m.coeff
      else if GoNum.feq m.coeff GoNum.zero then .k GoNum.zero
      else if GoNum.feq m.coeff GoNum.one = true ∧ m.exps = [1] then
        (match m.vars with
        | v :: _ => .var v
        | [] => .k m.coeff)
      else .mono m) := by
  unfold Mono.asSimplified
  rw [hm.check, Go.ok_bind]
  rcases m with ⟨c, es, vs⟩
  obtain ⟨hl, hp, -, -⟩ := hm
  simp only at hl hp
  rcases vs with _ | ⟨w, _ | ⟨w', vs⟩⟩
  · simp [Mono.isConstant, Go.pure_eq]
  · rcases es with _ | ⟨e, _ | ⟨e', es⟩⟩
    · simp at hl
    · have he : e ≠ 0 := by have := hp e (by simp); omega
      simp only [Mono.isConstant, List.isEmpty_cons, Bool.false_eq_true, if_false, reduceCtorEq]
      cases h1 : GoNum.feq c GoNum.zero
      · cases h2 : GoNum.feq c GoNum.one
        · simp [he, Go.pure_eq]
        · by_cases h3 : e = 1
          · simp [h3, Go.pure_eq]
          · simp [he, h3, Go.pure_eq]
      · simp [Go.pure_eq]
    · simp at hl
  · rcases es with _ | ⟨e, _ | ⟨e', es⟩⟩
    · simp at hl
    · simp at hl
    · have he : e ≠ 0 := by have := hp e (by simp); omega
      simp only [Mono.isConstant, List.isEmpty_cons, Bool.false_eq_true, if_false, reduceCtorEq]
      cases h1 : GoNum.feq c GoNum.zero
      · simp [he, Go.pure_eq]
      · simp [Go.pure_eq]

theorem Mono.asSimplified_good {m : Mono R} (hm : GoodM P D m) :
    Go.Ok m.asSimplified (Good P D) := by
  rw [Mono.asSimplified_eq hm.canon]
  refine ⟨_, rfl, ?_⟩
  split
  · trivial
  · split
    · trivial
    · split
      · rename_i hv _ h1
        rcases m with ⟨c, es, vs⟩
        simp only at hv h1 ⊢
        cases vs with
        | nil => exact absurd rfl hv
        | cons v vs =>
          have hl := hm.canon.len
          simp only [h1.2, List.length_cons, List.length_nil] at hl
          have : vs = [] := by
            rw [← List.length_eq_zero_iff]; omega
          subst this
          have hd := hm.degs
          simp only [hv, false_or, h1.2, Var.degs_one] at hd
          exact ⟨hm.canon.ok v (by simp), hm.vars v (by simp), hd⟩
      · exact hm

theorem Scalar.asSimplified_good {s : Scalar R} (h : Good P D s) :
    Go.Ok s.asSimplified (Good P D) := by
  cases s with
  | k c => exact Go.ok_pure trivial
  | var v => exact Go.ok_pure h
  | mono m => exact Mono.asSimplified_good h
  | poly p => exact Poly.asSimplified_good h.1 h.2

/-! ## Plus -/

theorem goodL_append {l l' : List (Mono R)} (h : GoodL P D l) (h' : GoodL P D l') :
    GoodL P D (l ++ l') := by
  intro m hm
  rcases List.mem_append.mp hm with hm | hm
  · exact h m hm
  · exact h' m hm

theorem goodL_modify {l : List (Mono R)} (h : GoodL P D l) (i : ℕ) (f : R → R) :
    GoodL P D (l.modify i (fun m => { m with coeff := f m.coeff })) := by
  intro m hm
  obtain ⟨j, hj, rfl⟩ := List.mem_iff_getElem.mp hm
  have hj' : j < l.length := by simpa using hj
  rw [List.getElem_modify]
  have := h l[j] (List.getElem_mem _)
  split
  · exact this.congr rfl rfl
  · exact this

theorem varIndexLoop_ok {v : Var R} (hv : v.OK) (l : List (Mono R))
    (hl : ∀ m ∈ l, m.exps.length = m.vars.length) :
    varIndexLoop v l = .ok (l.findIdx? (fun m => decide (m.exps = [1] ∧
      m.vars.map (·.id) = [v.id]))) := by
  induction l with
  | nil => rfl
  | cons a l ih =>
    unfold varIndexLoop
    rw [Mono.isDegreeOne_ok (hl a (by simp)) hv, Go.ok_bind, List.findIdx?_cons,
      ih (fun m hm => hl m (by simp [hm]))]
    split
    · rfl
    · rfl

theorem Poly.variableIndex_ok {p : Poly R} (hne : p.monos ≠ []) (h : GoodL P D p.monos)
    {v : Var R} (hv : v.OK) :
    p.variableIndex v = .ok (p.monos.findIdx? (fun m => decide (m.exps = [1] ∧
      m.vars.map (·.id) = [v.id]))) := by
  unfold Poly.variableIndex
  rw [GoodL.check hne h, hv.check, Go.ok_bind, Go.ok_bind]
  exact varIndexLoop_ok hv _ (fun m hm => (h m hm).canon.len)

/-- The term list before simplification in `Polynomial.Plus(K)`. -/
def plusKList (l : List (Mono R)) (c : R) : List (Mono R) :=
  match l.findIdx? (·.isConstant) with
  | none => l ++ [kToMono c]
  | some i => l.modify i (fun m => { m with coeff := GoNum.add m.coeff c })

/-- The term list before simplification in `Polynomial.Plus(Variable)`. -/
def plusVarList (l : List (Mono R)) (v : Var R) : List (Mono R) :=
  match l.findIdx? (fun m => decide (m.exps = [1] ∧ m.vars.map (·.id) = [v.id])) with
  | none => l ++ [v.toMono]
  | some i => l.modify i (fun m => { m with coeff := GoNum.add m.coeff GoNum.one })

theorem plusKList_good {l : List (Mono R)} (h : GoodL P D l) (hne : l ≠ []) (c : R) :
    plusKList l c ≠ [] ∧ GoodL P D (plusKList l c) := by
  unfold plusKList
  split
  · exact ⟨by simp, goodL_append h (fun m hm => by
      rw [List.mem_singleton] at hm; exact hm ▸ goodM_const c)⟩
  · refine ⟨?_, goodL_modify h _ (fun x => GoNum.add x c)⟩
    rw [← List.length_pos_iff]
    simpa [List.length_pos_iff] using hne

theorem plusVarList_good {l : List (Mono R)} (h : GoodL P D l) (hne : l ≠ []) {v : Var R}
    (hv : v.OK) (hP : P v) (hD : Finsupp.single v.id 1 ∈ D) :
    plusVarList l v ≠ [] ∧ GoodL P D (plusVarList l v) := by
  unfold plusVarList
  split
  · exact ⟨by simp, goodL_append h (fun m hm => by
      rw [List.mem_singleton] at hm; exact hm ▸ goodM_var hv hP hD _)⟩
  · refine ⟨?_, goodL_modify h _ (fun x => GoNum.add x GoNum.one)⟩
    rw [← List.length_pos_iff]
    simpa [List.length_pos_iff] using hne

theorem Poly.plusK_eq {p : Poly R} (hc : p.check = .ok ()) (c : R) :
    p.plusK c = Poly.asSimplified ⟨plusKList p.monos c⟩ := by
  unfold Poly.plusK
  rw [hc, Go.ok_bind]
  rfl

theorem Poly.plusVar_eq {p : Poly R} (hne : p.monos ≠ []) (h : GoodL P D p.monos) {v : Var R}
    (hv : v.OK) : p.plusVar v = Poly.asSimplified ⟨plusVarList p.monos v⟩ := by
  unfold Poly.plusVar
  rw [GoodL.check hne h, hv.check, Go.ok_bind, Go.ok_bind, Poly.variableIndex_ok hne h hv,
    Go.ok_bind]
  unfold plusVarList
  cases p.monos.findIdx? (fun m => decide (m.exps = [1] ∧ m.vars.map (·.id) = [v.id])) <;> rfl

theorem Poly.plusK_good {p : Poly R} (h : Good P D (.poly p)) (c : R) :
    Go.Ok (p.plusK c) (Good P D) := by
  rw [Poly.plusK_eq (GoodL.check h.1 h.2)]
  obtain ⟨h1, h2⟩ := plusKList_good h.2 h.1 c
  exact Poly.asSimplified_good h1 h2

theorem Poly.plusVar_good {p : Poly R} (h : Good P D (.poly p)) {v : Var R}
    (hv : Good P D (.var v)) : Go.Ok (p.plusVar v) (Good P D) := by
  rw [Poly.plusVar_eq h.1 h.2 hv.1]
  obtain ⟨h1, h2⟩ := plusVarList_good h.2 h.1 hv.1 hv.2.1 hv.2.2
  exact Poly.asSimplified_good h1 h2

theorem Poly.plusPoly_good {p q : Poly R} (hp : Good P D (.poly p)) (hq : Good P D (.poly q)) :
    Go.Ok (p.plusPoly q) (Good P D) := by
  unfold Poly.plusPoly
  rw [GoodL.check hp.1 hp.2, GoodL.check hq.1 hq.2, Go.ok_bind, Go.ok_bind]
  exact (Poly.asSimplified_good (by simp [hp.1]) (goodL_append hp.2 hq.2)).bind
    (fun _ h => Scalar.asSimplified_good h)

theorem Mono.toPoly_good {m : Mono R} (h : GoodM P D m) : Good P D (.poly m.toPoly) :=
  ⟨by simp [Mono.toPoly], fun x hx => by
    simp only [Mono.toPoly, List.mem_singleton] at hx; exact hx ▸ h⟩

theorem Poly.plusMono_good {p : Poly R} (hp : Good P D (.poly p)) {m : Mono R}
    (hm : GoodM P D m) : Go.Ok (p.plusMono m) (Good P D) := by
  unfold Poly.plusMono
  rw [GoodL.check hp.1 hp.2, hm.canon.check, Go.ok_bind, Go.ok_bind]
  exact (Poly.plusPoly_good hp (Mono.toPoly_good hm)).bind (fun _ h => Scalar.asSimplified_good h)

theorem good_pair {a b : Mono R} (ha : GoodM P D a) (hb : GoodM P D b) :
    Good P D (.poly ⟨[a, b]⟩) :=
  ⟨by simp, fun m hm => by
    simp only [List.mem_cons, List.not_mem_nil, or_false] at hm
    rcases hm with rfl | rfl
    · exact ha
    · exact hb⟩

theorem Mono.plus_good {m : Mono R} (hm : GoodM P D m) {e : Scalar R} (he : Good P D e) :
    Go.Ok (m.plus e) (Good P D) := by
  unfold Mono.plus
  rw [hm.canon.check, he.check, Go.ok_bind, Go.ok_bind]
  cases e with
  | k c =>
    simp only [Go.pure_eq, Go.ok_bind]
    split
    · exact Scalar.asSimplified_good trivial
    · exact Scalar.asSimplified_good (good_pair hm (goodM_const c))
  | var v =>
    simp only [Go.pure_eq, Go.ok_bind]
    rw [Mono.isDegreeOne_ok hm.canon.len he.1, Go.ok_bind]
    split
    · exact Scalar.asSimplified_good (s := .mono _) (hm.congr rfl rfl)
    · exact Scalar.asSimplified_good (good_pair hm (goodM_var he.1 he.2.1 he.2.2 _))
  | mono r =>
    simp only [Go.pure_eq, Go.ok_bind]
    rw [Mono.matches_ok hm.canon.len he.canon.len, Go.ok_bind]
    split
    · exact Scalar.asSimplified_good (s := .mono _) (hm.congr rfl rfl)
    · exact Scalar.asSimplified_good (good_pair hm he)
  | poly p => exact (Poly.plusMono_good he hm).bind (fun _ h => Scalar.asSimplified_good h)

theorem Poly.plus_good {p : Poly R} (hp : Good P D (.poly p)) {e : Scalar R} (he : Good P D e) :
    Go.Ok (p.plus e) (Good P D) := by
  cases e with
  | k c => exact Poly.plusK_good hp c
  | var v => exact Poly.plusVar_good hp he
  | mono m => exact Poly.plusMono_good hp he
  | poly q => exact Poly.plusPoly_good hp he

theorem Var.plus_good {v : Var R} (hv : Good P D (.var v)) {e : Scalar R} (he : Good P D e) :
    Go.Ok (v.plus e) (Good P D) := by
  have gv : GoodM P D v.toMono := goodM_var hv.1 hv.2.1 hv.2.2 _
  unfold Var.plus
  rw [hv.1.check, Go.ok_bind]
  cases e with
  | k c =>
    simp only [Go.pure_eq, Go.ok_bind]
    exact Scalar.asSimplified_good (good_pair gv (goodM_const c))
  | var w =>
    simp only [Go.pure_eq, Go.ok_bind]
    split
    · exact Scalar.asSimplified_good (s := .mono _) (goodM_var hv.1 hv.2.1 hv.2.2 _)
    · exact Scalar.asSimplified_good (good_pair gv (goodM_var he.1 he.2.1 he.2.2 _))
  | mono m => exact (Mono.plus_good he hv).bind (fun _ h => Scalar.asSimplified_good h)
  | poly p => exact (Poly.plusVar_good he hv).bind (fun _ h => Scalar.asSimplified_good h)

theorem kPlus_good (c : R) {e : Scalar R} (he : Good P D e) : Go.Ok (kPlus c e) (Good P D) := by
  unfold kPlus
  rw [he.check, Go.ok_bind]
  cases e with
  | k d => exact Go.ok_pure trivial
  | var v => exact Var.plus_good he (e := .k c) trivial
  | mono m => exact Mono.plus_good he (e := .k c) trivial
  | poly p => exact Poly.plusK_good he c

/-- On well-formed operands `Plus` returns a well-formed result with terms from the operands. -/
theorem Scalar.plus_good {a b : Scalar R} (ha : Good P D a) (hb : Good P D b) :
    Go.Ok (a.plus b) (Good P D) := by
  cases a with
  | k c => exact kPlus_good c hb
  | var v => exact Var.plus_good ha hb
  | mono m => exact Mono.plus_good ha hb
  | poly p => exact Poly.plus_good ha hb

end Verif
