import Verif.Props.Compile

/-!
# C15, C16, C18, C19 for vectors and matrices: variables, degree, constants, linear coefficients
-/

set_option linter.unusedSectionVars false

namespace Verif

open MvPolynomial

variable {R : Type}

/-! ## Variables -/

section Struct
variable [GoNum R] {r k : ℕ}

private theorem uniqueVars_mentions {e : Expr R} {l : List (Var R)}
    (h : ∀ v, e.Mentions v ↔ v ∈ l) :
    ((uniqueVars l).map (·.id)).Nodup ∧ (∀ v ∈ uniqueVars l, e.Mentions v) ∧
      ∀ v, e.Mentions v → v.id ∈ (uniqueVars l).map (·.id) := by
  obtain ⟨h1, h2, h3, -, -⟩ := uniqueVars_spec l
  exact ⟨h2, fun v hv => (h v).mpr (h1.subset hv),
    fun v hv => (h3 _).mpr (List.mem_map.mpr ⟨v, (h v).mp hv, rfl⟩)⟩

private theorem uniqueVars_mentions' {e : Expr R} {l : List (Var R)}
    (h1 : ∀ v ∈ l, e.Mentions v) (h2 : ∀ v, e.Mentions v → v.id ∈ l.map (·.id)) :
    ((uniqueVars l).map (·.id)).Nodup ∧ (∀ v ∈ uniqueVars l, e.Mentions v) ∧
      ∀ v, e.Mentions v → v.id ∈ (uniqueVars l).map (·.id) := by
  obtain ⟨k1, k2, k3, -, -⟩ := uniqueVars_spec l
  exact ⟨k2, fun v hv => h1 v (k1.subset hv), fun v hv => (k3 _).mpr (h2 v hv)⟩

/-- C19 for every kind: `Variables()` of a non-empty array answers, has no two variables with the same
ID and lists the IDs of exactly the variables written in the entries. -/
theorem variables_array {e : Expr R} (hr : 0 < r) (he : e.Canon) (hs : e.Shape r k) :
    ∃ vs, e.variables = .ok vs ∧ (vs.map (·.id)).Nodup ∧ (∀ v ∈ vs, e.Mentions v) ∧
      ∀ v, e.Mentions v → v.id ∈ vs.map (·.id) := by
  have hc := Expr.check_ok he hs hr
  cases e with
  | s a =>
    have ha : a.Canon := he [a] (by simp [Expr.grid]) a (by simp)
    obtain ⟨h1, h2, h3⟩ := variables_nodup ha
    refine ⟨_, rfl, h1, fun v hv => ⟨[a], by simp [Expr.grid], a, by simp, h2 v hv⟩, ?_⟩
    rintro v ⟨row, hrow, b, hb, hv⟩
    simp only [Expr.grid, List.mem_singleton] at hrow
    subst hrow
    rw [List.mem_singleton.mp hb] at hv
    exact h3 v hv
  | v a =>
    have hm : ∀ v, (Expr.v a).Mentions v ↔ ∃ x ∈ a.entries, x.Mentions v := by
      intro v
      simp [Expr.Mentions, Expr.grid]
    cases a with
    | k l =>
      refine ⟨[], rfl, by simp, by simp, fun v hv => ?_⟩
      obtain ⟨x, hx, hv⟩ := (hm v).mp hv
      obtain ⟨c, -, rfl⟩ := List.mem_map.mp hx
      exact hv.elim
    | v l =>
      refine ⟨_, rfl, uniqueVars_mentions fun v => ?_⟩
      rw [hm]
      simp [Vec.entries, Scalar.Mentions]
    | m l =>
      refine ⟨uniqueVars (l.flatMap Mono.variables), ?_, uniqueVars_mentions fun v => ?_⟩
      · show (do Vec.check (.m l); _ : Go (List (Var R))) = _
        rw [show Vec.check (.m l) = .ok () from hc]
        rfl
      · rw [hm]
        simp [Vec.entries, Scalar.Mentions, Mono.variables]
    | p l =>
      have hl : ∀ p ∈ l, p.Canon := fun p hp => he [.poly p] (by simp [Expr.grid, Vec.entries, hp]) (.poly p)
        (by simp)
      refine ⟨_, rfl, uniqueVars_mentions' ?_ ?_⟩
      · intro v hv
        obtain ⟨p, hp, hv⟩ := List.mem_flatMap.mp hv
        rw [hm]
        exact ⟨.poly p, by simp [Vec.entries, hp], (variables_nodup (e := .poly p) (hl p hp)).2.1 v hv⟩
      · intro v hv
        obtain ⟨x, hx, hv⟩ := (hm v).mp hv
        obtain ⟨p, hp, rfl⟩ := List.mem_map.mp hx
        obtain ⟨w, hw, he⟩ := List.mem_map.mp ((variables_nodup (e := .poly p) (hl p hp)).2.2 v hv)
        exact List.mem_map.mpr ⟨w, List.mem_flatMap.mpr ⟨p, hp, hw⟩, he⟩
  | m a =>
    have hm : ∀ v, (Expr.m a).Mentions v ↔ ∃ row ∈ a.entries, ∃ x ∈ row, x.Mentions v := fun v => Iff.rfl
    cases a with
    | k l =>
      refine ⟨[], rfl, by simp, by simp, fun v hv => ?_⟩
      obtain ⟨row, hrow, x, hx, hv⟩ := (hm v).mp hv
      obtain ⟨row', -, rfl⟩ := List.mem_map.mp hrow
      obtain ⟨c, -, rfl⟩ := List.mem_map.mp hx
      exact hv.elim
    | v l =>
      refine ⟨uniqueVars l.flatten, ?_, uniqueVars_mentions fun v => ?_⟩
      · show (do Mat.check (.v l); _ : Go (List (Var R))) = _
        rw [show Mat.check (.v l) = .ok () from hc]
        rfl
      · rw [hm]
        simp [Mat.entries, Scalar.Mentions]
    | m l =>
      refine ⟨uniqueVars (l.flatten.flatMap Mono.variables), ?_, uniqueVars_mentions fun v => ?_⟩
      · show (do Mat.check (.m l); _ : Go (List (Var R))) = _
        rw [show Mat.check (.m l) = .ok () from hc]
        rfl
      · rw [hm]
        simp only [Mat.entries, List.mem_flatMap, List.mem_flatten, List.mem_map, Mono.variables]
        constructor
        · rintro ⟨_, ⟨row, hrow, rfl⟩, x, hx, hv⟩
          obtain ⟨m, hm', rfl⟩ := List.mem_map.mp hx
          exact ⟨m, ⟨row, hrow, hm'⟩, hv⟩
        · rintro ⟨m, ⟨row, hrow, hm'⟩, hv⟩
          exact ⟨_, ⟨row, hrow, rfl⟩, .mono m, List.mem_map.mpr ⟨m, hm', rfl⟩, hv⟩
    | p l =>
      have hl : ∀ row ∈ l, ∀ p ∈ row, p.Canon := fun row hrow p hp =>
        he (row.map .poly) (List.mem_map.mpr ⟨row, hrow, rfl⟩) (.poly p) (List.mem_map.mpr ⟨p, hp, rfl⟩)
      refine ⟨uniqueVars (l.flatten.flatMap Poly.variables), ?_, uniqueVars_mentions' ?_ ?_⟩
      · show (do Mat.check (.p l); _ : Go (List (Var R))) = _
        rw [show Mat.check (.p l) = .ok () from hc]
        rfl
      · intro v hv
        obtain ⟨p, hp, hv⟩ := List.mem_flatMap.mp hv
        obtain ⟨row, hrow, hp⟩ := List.mem_flatten.mp hp
        rw [hm]
        exact ⟨row.map .poly, List.mem_map.mpr ⟨row, hrow, rfl⟩, .poly p, List.mem_map.mpr ⟨p, hp, rfl⟩,
          (variables_nodup (e := .poly p) (hl row hrow p hp)).2.1 v hv⟩
      · intro v hv
        obtain ⟨_, hrow, x, hx, hv⟩ := (hm v).mp hv
        obtain ⟨row, hrow', rfl⟩ := List.mem_map.mp hrow
        obtain ⟨p, hp, rfl⟩ := List.mem_map.mp hx
        obtain ⟨w, hw, he⟩ := List.mem_map.mp
          ((variables_nodup (e := .poly p) (hl row hrow' p hp)).2.2 v hv)
        exact List.mem_map.mpr
          ⟨w, List.mem_flatMap.mpr ⟨p, List.mem_flatten.mpr ⟨row, hrow', hp⟩, hw⟩, he⟩

/-! ## Degree -/

/-- The maximum loop computes the least upper bound of the degrees and zero. -/
theorem maxDegreeLoop_ok {α : Type} {f : α → Go Int} {l : List α} {N : α → ℕ → Prop}
    (h : ∀ x ∈ l, ∃ d, f x = .ok d ∧ ∀ n : ℕ, d ≤ n ↔ N x n) :
    ∃ d, maxDegreeLoop f l = .ok d ∧ 0 ≤ d ∧ ∀ n : ℕ, d ≤ n ↔ ∀ x ∈ l, N x n := by
  have key : ∀ (l : List α) (d0 : Int), (∀ x ∈ l, ∃ d, f x = .ok d ∧ ∀ n : ℕ, d ≤ n ↔ N x n) →
      ∃ d, l.foldlM (fun d x => do
        let dx ← f x
        return (if dx > d then dx else d)) d0 = .ok d ∧ d0 ≤ d ∧
        ∀ n : ℕ, d ≤ n ↔ d0 ≤ n ∧ ∀ x ∈ l, N x n := by
    intro l
    induction l with
    | nil => exact fun d0 _ => ⟨d0, rfl, le_rfl, by simp⟩
    | cons a l ih =>
      intro d0 h
      obtain ⟨da, h1, h2⟩ := h a (by simp)
      obtain ⟨d, h3, h4, h5⟩ := ih (if da > d0 then da else d0) (fun x hx => h x (by simp [hx]))
      refine ⟨d, ?_, ?_, fun n => ?_⟩
      · rw [List.foldlM_cons, h1, Go.ok_bind, Go.pure_eq, Go.ok_bind]
        exact h3
      · split at h4 <;> omega
      · rw [h5, List.forall_mem_cons, ← h2 n]
        split
        · constructor
          · rintro ⟨k1, k2⟩
            exact ⟨by omega, k1, k2⟩
          · rintro ⟨_, k1, k2⟩
            exact ⟨k1, k2⟩
        · constructor
          · rintro ⟨k1, k2⟩
            exact ⟨k1, by omega, k2⟩
          · rintro ⟨k1, -, k2⟩
            exact ⟨k1, k2⟩
  obtain ⟨d, h1, h2, h3⟩ := key l 0 h
  exact ⟨d, h1, h2, fun n => by rw [h3 n]; simp⟩

end Struct

section Value
variable [Field R] [LinearOrder R] {r k : ℕ}

private theorem degree_all {a : Scalar R} (ha : a.Canon) :
    ∃ d : Int, a.degree = .ok d ∧ ∀ n : ℕ, d ≤ n ↔ a.TermsIn (degLE n) := by
  obtain ⟨d, h, -⟩ := Scalar.degree_le_iff ha (n := 0)
  refine ⟨d, h, fun n => ?_⟩
  obtain ⟨d', h', h2⟩ := Scalar.degree_le_iff ha (n := n)
  rw [h, Except.ok.injEq] at h'
  exact h' ▸ h2

/-- C18 for every kind: `Degree()` is the least number that bounds the degrees of all written terms of
all entries. -/
theorem degree_array {e : Expr R} (hr : 0 < r) (hk : 0 < k) (he : e.Canon) (hs : e.Shape r k) :
    ∃ d : Int, e.degree = .ok d ∧ 0 ≤ d ∧ ∀ n : ℕ, d ≤ n ↔ e.TermsIn (degLE n) := by
  have hc := Expr.check_ok he hs hr
  have hone : ∀ (v : Var R) (n : ℕ), Scalar.TermsIn (degLE n) (.var v) ↔ (1 : Int) ≤ n := by
    intro v n
    simp only [Scalar.TermsIn, mem_degLE]
    rw [Finsupp.sum_single_index rfl]
    omega
  cases e with
  | s a =>
    have ha : a.Canon := he [a] (by simp [Expr.grid]) a (by simp)
    obtain ⟨d, h1, h2⟩ := degree_all ha
    have h0 : 0 ≤ d := by
      obtain ⟨n, k1, k2⟩ := degree_upper_bound ha
      rw [h1, Except.ok.injEq] at k1
      omega
    exact ⟨d, h1, h0, fun n => by rw [h2]; simp [Expr.TermsIn, Expr.All, Expr.grid]⟩
  | v a =>
    have hm : ∀ n, (Expr.v a).TermsIn (degLE n) ↔ ∀ x ∈ a.entries, x.TermsIn (degLE n) := by
      intro n
      simp [Expr.TermsIn, Expr.All, Expr.grid]
    have hcan : ∀ x ∈ a.entries, x.Canon := fun x hx => he [x] (by simp [Expr.grid, hx]) x (by simp)
    have hlen : a.entries.length = r := by simpa [Expr.grid] using hs.1
    cases a with
    | k l =>
      refine ⟨0, rfl, le_rfl, fun n => ?_⟩
      rw [hm]
      simp [Vec.entries, Scalar.TermsIn]
    | v l =>
      refine ⟨1, rfl, by decide, fun n => ?_⟩
      rw [hm]
      simp only [Vec.entries, List.length_map] at hlen
      constructor
      · intro h x hx
        obtain ⟨v, -, rfl⟩ := List.mem_map.mp hx
        exact (hone v n).mpr h
      · intro h
        rcases l with _ | ⟨v, l⟩
        · simp at hlen; omega
        · exact (hone v n).mp (h _ (by simp [Vec.entries]))
    | m l =>
      obtain ⟨d, h1, h2, h3⟩ := maxDegreeLoop_ok (f := Mono.degree) (l := l)
        (N := fun m n => Scalar.TermsIn (degLE n) (.mono m))
        fun m hm' => degree_all (hcan (.mono m) (List.mem_map.mpr ⟨m, hm', rfl⟩))
      refine ⟨d, ?_, h2, fun n => by rw [h3, hm]; simp [Vec.entries]⟩
      show (do Vec.check (.m l); _ : Go Int) = _
      rw [show Vec.check (.m l) = .ok () from hc]
      exact h1
    | p l =>
      obtain ⟨d, h1, h2, h3⟩ := maxDegreeLoop_ok (f := Poly.degree) (l := l)
        (N := fun m n => Scalar.TermsIn (degLE n) (.poly m))
        fun m hm' => degree_all (hcan (.poly m) (List.mem_map.mpr ⟨m, hm', rfl⟩))
      refine ⟨d, ?_, h2, fun n => by rw [h3, hm]; simp [Vec.entries]⟩
      show (do Vec.check (.p l); _ : Go Int) = _
      rw [show Vec.check (.p l) = .ok () from hc]
      exact h1
  | m a =>
    have hm : ∀ n, (Expr.m a).TermsIn (degLE n) ↔ ∀ x ∈ a.entries.flatten, x.TermsIn (degLE n) := by
      intro n
      simp only [Expr.TermsIn, Expr.All, Expr.grid, List.mem_flatten]
      exact ⟨fun h x ⟨row, h1, h2⟩ => h row h1 x h2, fun h row h1 x h2 => h x ⟨row, h1, h2⟩⟩
    have hcan : ∀ x ∈ a.entries.flatten, x.Canon := fun x hx => by
      obtain ⟨row, h1, h2⟩ := List.mem_flatten.mp hx
      exact he row h1 x h2
    cases a with
    | k l =>
      refine ⟨0, rfl, le_rfl, fun n => ?_⟩
      rw [hm]
      simp only [Mat.entries, ← List.map_flatten, List.forall_mem_map]
      simp [Scalar.TermsIn]
    | v l =>
      refine ⟨1, rfl, by decide, fun n => ?_⟩
      rw [hm]
      simp only [Mat.entries, ← List.map_flatten]
      constructor
      · intro h x hx
        obtain ⟨v, -, rfl⟩ := List.mem_map.mp hx
        exact (hone v n).mpr h
      · intro h
        obtain ⟨hl, hrow⟩ := hs
        simp only [Expr.grid, Mat.entries, List.length_map] at hl hrow
        rcases l with _ | ⟨row, l⟩
        · simp at hl; omega
        · have := hrow (row.map .var) (by simp)
          rcases row with _ | ⟨v, row⟩
          · simp at this; omega
          · exact (hone v n).mp (h _ (by simp))
    | m l =>
      simp only [Mat.entries, ← List.map_flatten] at hm hcan
      obtain ⟨d, h1, h2, h3⟩ := maxDegreeLoop_ok (f := Mono.degree) (l := l.flatten)
        (N := fun m n => Scalar.TermsIn (degLE n) (.mono m))
        fun m hm' => degree_all (hcan (.mono m) (List.mem_map.mpr ⟨m, hm', rfl⟩))
      refine ⟨d, ?_, h2, fun n => by rw [h3, hm, List.forall_mem_map]⟩
      show (do Mat.check (.m l); _ : Go Int) = _
      rw [show Mat.check (.m l) = .ok () from hc]
      exact h1
    | p l =>
      simp only [Mat.entries, ← List.map_flatten] at hm hcan
      obtain ⟨d, h1, h2, h3⟩ := maxDegreeLoop_ok (f := Poly.degree) (l := l.flatten)
        (N := fun m n => Scalar.TermsIn (degLE n) (.poly m))
        fun m hm' => degree_all (hcan (.poly m) (List.mem_map.mpr ⟨m, hm', rfl⟩))
      refine ⟨d, ?_, h2, fun n => by rw [h3, hm, List.forall_mem_map]⟩
      show (do Mat.check (.p l); _ : Go Int) = _
      rw [show Mat.check (.p l) = .ok () from hc]
      exact h1

/-- C18: `Degree()` bounds the total degree of every entry. -/
theorem degree_array_bound {e : Expr R} (hr : 0 < r) (hk : 0 < k) (he : e.Canon) (hs : e.Shape r k) :
    ∃ d : ℕ, e.degree = .ok (d : Int) ∧ e.All fun a => a.den.totalDegree ≤ d := by
  obtain ⟨d, h1, h2, h3⟩ := degree_array hr hk he hs
  obtain ⟨n, rfl⟩ := Int.eq_ofNat_of_zero_le h2
  refine ⟨n, h1, fun row hrow a ha => ?_⟩
  have ht := (h3 n).mp le_rfl row hrow a ha
  obtain ⟨d, k1, k2⟩ := degree_all (he row hrow a ha)
  obtain ⟨d', k3, k4⟩ := degree_upper_bound (he row hrow a ha)
  rw [k1, Except.ok.injEq] at k3
  have := (k2 n).mpr ht
  omega

/-- C18: for entries that are simplified and have flat terms, `Degree()` is the largest total degree of
an entry.  Missing: as in `degree_eq_totalDegree_partial`. -/
theorem degree_array_exact_partial {e : Expr R} (hr : 0 < r) (hk : 0 < k) (he : e.Canon)
    (hs : e.Shape r k) (hf : e.TermsIn flat) (hsi : e.All fun a => a.asSimplified = .ok a) :
    ∃ d : ℕ, e.degree = .ok (d : Int) ∧ ∀ n : ℕ, d ≤ n ↔ e.All fun a => a.den.totalDegree ≤ n := by
  obtain ⟨d, h1, h2, h3⟩ := degree_array hr hk he hs
  obtain ⟨d, rfl⟩ := Int.eq_ofNat_of_zero_le h2
  refine ⟨d, h1, fun n => ?_⟩
  have key : ∀ row ∈ e.grid, ∀ a ∈ row, (a.TermsIn (degLE n) ↔ a.den.totalDegree ≤ n) := by
    intro row hrow a ha
    have k1 := degree_eq_totalDegree_partial (he row hrow a ha) (hf row hrow a ha) (hsi row hrow a ha)
    obtain ⟨d', k2, k3⟩ := degree_all (he row hrow a ha)
    rw [k1, Except.ok.injEq] at k2
    rw [← k3, ← k2]
    omega
  have h4 := h3 n
  rw [Nat.cast_le] at h4
  rw [h4]
  exact ⟨fun h row hrow a ha => (key row hrow a ha).mp (h row hrow a ha),
    fun h row hrow a ha => (key row hrow a ha).mpr (h row hrow a ha)⟩

/-! ## Constants -/

/-- C16 for vectors: `Constant()` lists the constant terms of the entries.  Missing: polynomials with
two constant terms (`constant_false`). -/
theorem vec_constant_partial {a : Vec R} (hr : 0 < r) (he : (Expr.v a).Canon)
    (hs : (Expr.v a).Shape r 1) (hd : ∀ x ∈ a.entries, x.LowDistinct) :
    a.constant = .ok (a.entries.map fun x => coeff 0 x.den) := by
  have hc : a.check = .ok () := Expr.check_ok he hs hr
  have hcan : ∀ x ∈ a.entries, x.Canon := fun x hx => he [x] (by simp [Expr.grid, hx]) x (by simp)
  have hlen : a.entries.length = r := by simpa [Expr.grid] using hs.1
  have hconst : ∀ x ∈ a.entries, x.constant = .ok (coeff 0 x.den) := fun x hx =>
    constant_partial (hcan x hx) (hd x hx)
  have hne : ∀ l : List R, l.length = r → newVecDense l = .ok l := by
    intro l hl
    unfold newVecDense
    rw [if_neg (by rintro rfl; simp at hl; omega)]
    rfl
  cases a with
  | k l =>
    simp only [Vec.entries, List.length_map] at hlen
    show newVecDense l = _
    rw [hne l hlen]
    simp [Vec.entries, Function.comp_def]
  | v l =>
    simp only [Vec.entries, List.length_map] at hlen
    show newVecDense _ = _
    rw [hne _ (by simpa using hlen)]
    simp [Vec.entries, Function.comp_def]
  | m l =>
    show (do Vec.check (.m l); _ : Go (List R)) = _
    rw [hc, Go.ok_bind, Go.pure_eq]
    congr 1
    simp only [Vec.entries, List.map_map]
    apply List.map_congr_left
    intro m hm
    have := hconst (.mono m) (by simp [Vec.entries, hm])
    simpa [Scalar.constant, Go.pure_eq] using this
  | p l =>
    show (do Vec.check (.p l); _ : Go (List R)) = _
    rw [hc, Go.ok_bind, mapM_eq (g := fun p => coeff 0 (Scalar.poly p).den)]
    · simp [Vec.entries, Function.comp_def]
    · exact fun p hp => hconst (.poly p) (by simp [Vec.entries, hp])

/-- C16 for matrices. -/
theorem mat_constant_partial {a : Mat R} (hr : 0 < r) (hk : 0 < k) (he : (Expr.m a).Canon)
    (hs : (Expr.m a).Shape r k) (hd : ∀ row ∈ a.entries, ∀ x ∈ row, x.LowDistinct) :
    a.constant = .ok (a.entries.map fun row => row.map fun x => coeff 0 x.den) := by
  have hdims : a.dims = .ok (r, k) := Expr.dims_ok he hs hr
  have hconst : ∀ row ∈ a.entries, ∀ x ∈ row, x.constant = .ok (coeff 0 x.den) :=
    fun row hrow x hx => constant_partial (he row hrow x hx) (hd row hrow x hx)
  have hk' : ¬ ((r, k) : ℕ × ℕ).2 = 0 := by simp only []; omega
  cases a with
  | k rows =>
    have h1 : MArr r k (fun _ _ _ => True) (.k rows) := shape_iff.mp hs
    have h2 : Arr r k (fun i j c => (rows[i]?.bind (·[j]?)) = some c) rows := by
      have h0 : Arr r k (fun _ _ (_ : R) => True) rows := Arr.map_iff.mp h1
      refine ⟨h0.1, fun i row hrow => ⟨(h0.2 i row hrow).1, fun j c hj => ?_⟩⟩
      show (rows[i]?.bind (·[j]?)) = some c
      rw [hrow]
      simpa using hj
    obtain ⟨rows', h3, h4⟩ := kToDense_ok h2 hr (by omega)
    have h5 : rows' = rows := by
      refine h4.of_eq (h2.mono fun i j a hi hj ha b hb => ?_)
      rw [ha] at hb
      exact (Option.some.inj hb).symm
    subst h5
    show kToDense rows' = _
    rw [h3]
    simp [Mat.entries, Function.comp_def]
  | v rows =>
    show (do let d ← Mat.dims (.v rows); _ : Go (List (List R))) = _
    rw [hdims, Go.ok_bind, if_neg hk']
    simp [Mat.entries, Function.comp_def, Go.pure_eq]
  | m rows =>
    show (do let d ← Mat.dims (.m rows); _ : Go (List (List R))) = _
    rw [hdims, Go.ok_bind, if_neg hk']
    refine congrArg Except.ok ?_
    simp only [Mat.entries, List.map_map, Function.comp_def]
    apply List.map_congr_left
    intro row hrow
    apply List.map_congr_left
    intro m hm
    have := hconst (row.map .mono) (List.mem_map.mpr ⟨row, hrow, rfl⟩) (.mono m)
      (List.mem_map.mpr ⟨m, hm, rfl⟩)
    simpa [Scalar.constant, Go.pure_eq] using this
  | p rows =>
    show (do let d ← Mat.dims (.p rows); _ : Go (List (List R))) = _
    rw [hdims, Go.ok_bind, if_neg hk']
    show rows.mapM (fun row => row.mapM Poly.constant) = _
    rw [mapM_eq (g := fun row : List (Poly R) => row.map fun p => coeff 0 (Scalar.poly p).den)]
    · simp [Mat.entries, Function.comp_def]
    · intro row hrow
      rw [mapM_eq (g := fun p => coeff 0 (Scalar.poly p).den)]
      exact fun p hp => hconst (row.map .poly) (List.mem_map.mpr ⟨row, hrow, rfl⟩) (.poly p)
        (List.mem_map.mpr ⟨p, hp, rfl⟩)

/-! ## Linear coefficients -/

theorem Vec.entries_eq {a : Vec R} (hs : (Expr.v a).Shape r 1) :
    a.entries = (List.range r).map fun i => (Expr.v a).entryD i 0 := by
  have h := hs.grid_eq
  simp only [Expr.grid, List.range_one, List.map_cons, List.map_nil] at h
  have h2 : (List.range r).map (fun i => [(Expr.v a).entryD i 0]) =
      ((List.range r).map fun i => (Expr.v a).entryD i 0).map (fun x => [x]) := by
    rw [List.map_map]
    rfl
  rw [h2] at h
  exact List.map_injective_iff.mpr (fun x y hxy => by simpa using hxy) h

private theorem vec_linearCoeff_eq {a : Vec R} {n : ℕ} {ws : List (Var R)} (h1 : a.check = .ok ())
    (h2 : a.len = .ok n) (h3 : ws ≠ []) (h4 : n ≠ 0) :
    a.linearCoeff [ws] = (List.range n).mapM (fun (i : Nat) => do
      let x ← a.atVec i
      x.linearCoeff [ws]) := by
  unfold Vec.linearCoeff
  rw [h1, Go.ok_bind]
  simp only [Go.pure_eq, Go.ok_bind, List.isEmpty_iff, h3, if_false, h2, h4]

/-- C15 for vectors: `LinearCoeff(vars)` is the matrix of the first-degree coefficients of the entries.
Missing: entries that write a low term twice, monomials without variables and lists that do not cover
the variables of the monomials (see `linearCoeff_partial`). -/
theorem vec_linearCoeff_partial {a : Vec R} (hr : 0 < r) (he : (Expr.v a).Canon)
    (hs : (Expr.v a).Shape r 1) (hd : ∀ x ∈ a.entries, x.LowDistinct)
    (hm : ∀ m, Scalar.mono m ∈ a.entries → m.vars ≠ []) {ws : List (Var R)} (hne : ws ≠ [])
    (hok : ∀ w ∈ ws, w.OK) (hnd : (ws.map (·.id)).Nodup)
    (hcov : ∀ v, (Expr.v a).Mentions v → v.id ∈ ws.map (·.id)) :
    a.linearCoeff [ws] =
      .ok (a.entries.map fun x => ws.map fun w => coeff (Finsupp.single w.id 1) x.den) := by
  have hc : a.check = .ok () := Expr.check_ok he hs hr
  have hlen : a.entries.length = r := by simpa [Expr.grid] using hs.1
  rw [vec_linearCoeff_eq hc (Vec.len_ok he hs hr) hne (by omega),
    mapM_eq (g := fun i => ws.map fun w => coeff (Finsupp.single w.id 1) ((Expr.v a).entryD i 0).den)]
  · congr 1
    have h := Vec.entries_eq hs
    rw [h]
    simp
  · intro i hi
    have hi := List.mem_range.mp hi
    rw [Vec.atVec_entryD he hs hi, Go.ok_bind]
    have hmem : (Expr.v a).entryD i 0 ∈ a.entries := by
      have := hs.entryD_some hi (j := 0) (by decide)
      simp only [Expr.entry, Expr.grid, List.getElem?_map, Option.bind_map, Option.bind_eq_some_iff] at this
      obtain ⟨x, hx, hx'⟩ := this
      simp at hx'
      rw [← hx']
      exact List.mem_of_getElem? hx
    refine linearCoeff_partial (he _ (List.mem_map.mpr ⟨_, hmem, rfl⟩) _ (by simp)) (hd _ hmem)
      (fun m hm' => hm m (hm' ▸ hmem)) hne hok hnd fun v hv => ?_
    exact hcov v ⟨_, List.mem_map.mpr ⟨_, hmem, rfl⟩, _, by simp, hv⟩

/-- C17 for vectors: a linear vector is its constants plus its linear coefficients times the
variables. -/
theorem vec_affine_partial {a : Vec R} (hr : 0 < r) (he : (Expr.v a).Canon)
    (hs : (Expr.v a).Shape r 1) (hl : (Expr.v a).isLinear = .ok true)
    (hd : ∀ x ∈ a.entries, x.LowDistinct)
    (hm : ∀ m, Scalar.mono m ∈ a.entries → m.vars ≠ []) {ws : List (Var R)} (hne : ws ≠ [])
    (hok : ∀ w ∈ ws, w.OK) (hnd : (ws.map (·.id)).Nodup)
    (hcov : ∀ v, (Expr.v a).Mentions v → v.id ∈ ws.map (·.id)) :
    ∃ A b, a.linearCoeff [ws] = .ok A ∧ a.constant = .ok b ∧ ∀ ρ,
      a.entries.map (Scalar.value ρ) =
        List.zipWith (fun row k => k + ((row.zip ws).map fun cw => cw.1 * ρ cw.2.id).sum) A b := by
  refine ⟨_, _, vec_linearCoeff_partial hr he hs hd hm hne hok hnd hcov,
    vec_constant_partial hr he hs hd, fun ρ => ?_⟩
  obtain ⟨d, h1, h2, h3⟩ := degree_array hr (by decide) he hs
  have hdeg : (Expr.v a).TermsIn (degLE 1) := by
    refine (h3 1).mp ?_
    unfold Expr.isLinear at hl
    rw [h1] at hl
    simpa [Go.pure_eq, Go.ok_bind] using hl
  have key : ∀ x ∈ a.entries, x.value ρ = coeff 0 x.den +
      (((ws.map fun w => coeff (Finsupp.single w.id 1) x.den).zip ws).map
        fun cw => cw.1 * ρ cw.2.id).sum := by
    intro x hx
    have hx' : [x] ∈ (Expr.v a).grid := List.mem_map.mpr ⟨x, hx, rfl⟩
    rw [Scalar.value_affine (he _ hx' x (by simp)) (hdeg _ hx' x (by simp)) hnd
      (fun v hv => hcov v ⟨_, hx', x, by simp, hv⟩) ρ]
    congr 1
    generalize ws = l
    induction l with
    | nil => rfl
    | cons w l ih => simpa using ih
  generalize a.entries = l at key ⊢
  induction l with
  | nil => rfl
  | cons x l ih =>
    simp only [List.map_cons, List.zipWith_cons_cons]
    rw [key x (by simp), ih fun y hy => key y (by simp [hy])]

end Value

/-! ## Examples -/

example : ∃ vs, (Expr.m wMp).variables = .ok vs ∧ (vs.map (·.id)).Nodup ∧
    (∀ v ∈ vs, (Expr.m wMp).Mentions v) ∧ ∀ v, (Expr.m wMp).Mentions v → v.id ∈ vs.map (·.id) :=
  variables_array (r := 2) (k := 2) (by decide) (Expr.okDeg_canon 2 (by decide +kernel))
    (by decide +kernel)

example : ∃ d, (Expr.v wVm).degree = .ok d ∧ 0 ≤ d ∧
    ∀ n : ℕ, d ≤ n ↔ (Expr.v wVm).TermsIn (degLE n) :=
  degree_array (r := 2) (k := 1) (by decide) (by decide) (Expr.okDeg_canon 2 (by decide +kernel))
    (by decide +kernel)

example : (Expr.v wVm).degree = .ok 2 ∧ (Expr.m wMp).degree = .ok 1 := by decide +kernel

theorem wVp_low : ∀ x ∈ wVp.entries, x.LowDistinct := by
  intro x hx
  simp only [wVp, Vec.entries, List.map_cons, List.map_nil, List.mem_cons, List.not_mem_nil,
    or_false] at hx
  rcases hx with rfl | rfl <;> simp [Scalar.LowDistinct, wm1_degs, wm0_degs]

example : ∃ A b, wVp.linearCoeff [[wy, wx]] = .ok A ∧ wVp.constant = .ok b ∧ ∀ ρ,
      wVp.entries.map (Scalar.value ρ) = List.zipWith
        (fun row k => k + ((row.zip [wy, wx]).map fun cw => cw.1 * ρ cw.2.id).sum) A b :=
  vec_affine_partial (r := 2) (by decide) (Expr.okDeg_canon 2 (by decide +kernel))
    (by decide +kernel) (by decide +kernel) wVp_low (by simp [wVp, Vec.entries]) (by simp)
    (by simp [wv_ok]) (by decide +kernel) (by
      intro v hv
      simp only [Expr.Mentions, Expr.grid, wVp, Vec.entries, List.map_cons, List.map_nil, wm1, wm0,
        List.mem_cons, List.not_mem_nil, or_false, exists_eq_or_imp, exists_eq_left, Scalar.Mentions,
        false_or] at hv
      rcases hv with rfl | rfl <;> decide +kernel)

example : wVp.linearCoeff [[wy, wx]] = .ok [[0, 1], [2, 0]] ∧ wVp.constant = .ok [5, 0] ∧
    wMp.constant = .ok [[5, 0], [1, 0]] := by decide +kernel

end Verif
