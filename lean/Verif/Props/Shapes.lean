import Mathlib.LinearAlgebra.Matrix.Notation
import Verif.Lemmas.Shapes
import Verif.Props.Matrices
import Verif.WitnessArray

/-!
# C28, C29, C30, C31, C32, C46: shapes

* `Transpose` exchanges rows and columns and is an involution.
* `HStack` and `VStack` place every block where it belongs.
* `ConcretizeVectorExpression` and `ConcretizeMatrixExpression` keep the entries.
* Dimension and index checks accept exactly the compatible shapes and the valid indices.
* `Power` of a square matrix is the repeated product.
-/

namespace Verif

open MvPolynomial

variable {r c : ℕ}

section Structure

variable {R : Type} [GoNum R]

/-! ### C28: Transpose -/

/-- C28 (every number type, every kind and shape): the transpose of an `r` by `c` expression is
`c` by `r`, well formed, and its entry `(j, i)` is the entry `(i, j)` of the receiver. -/
theorem transpose_entry {e : Expr R} (hr : 0 < r) (hc : 0 < c) (he : e.Canon) (hs : e.Shape r c) :
    ∃ e', e.transpose = .ok e' ∧ e'.Shape c r ∧ e'.Canon ∧ ∀ i j, e'.entry j i = e.entry i j := by
  obtain ⟨e', h1, h2⟩ := Expr.transpose_ok ((EArr.self hs).and_all he) hr hc
    fun _ _ a ha => (good_of_univ ha.2).check
  refine ⟨e', h1, h2.shape, h2.all fun _ _ _ h => h.2, fun i j => ?_⟩
  by_cases h : i < r ∧ j < c
  · obtain ⟨a, h3, h4⟩ := h2.get h.2 h.1
    rw [h3]
    exact h4.1.symm
  · rw [hs.entry_none h, h2.shape.entry_none fun h' => h h'.symm]

/-- C28: transposing twice gives back the same shape and the same entries. -/
theorem transpose_transpose {e : Expr R} (hr : 0 < r) (hc : 0 < c) (he : e.Canon) (hs : e.Shape r c) :
    ∃ e' e'', e.transpose = .ok e' ∧ e'.transpose = .ok e'' ∧ e''.grid = e.grid := by
  obtain ⟨e', h1, h2, h3, h4⟩ := transpose_entry hr hc he hs
  obtain ⟨e'', h5, h6, -, h7⟩ := transpose_entry hc hr h3 h2
  exact ⟨e', e'', h1, h5, h6.grid_ext hs fun i j _ _ => by rw [h7, h4]⟩

/-! ### C32: indices -/

/-- C32: `At` on any kind of expression succeeds exactly on the valid indices and returns the entry
there. -/
theorem at_ok_iff {e : Expr R} (hr : 0 < r) (hc : 0 < c) (he : e.Canon) (hs : e.Shape r c) (i j : ℤ)
    (a : Scalar R) : e.at i j = .ok a ↔
      0 ≤ i ∧ i < r ∧ 0 ≤ j ∧ j < c ∧ e.entry i.toNat j.toNat = some a := by
  rw [Expr.at_spec he hs hr hc]
  by_cases h : 0 ≤ i ∧ 0 ≤ j ∧ i.toNat < r ∧ j.toNat < c
  · obtain ⟨b, h1, -⟩ := (EArr.self hs).get h.2.2.1 h.2.2.2
    rw [accessSpec_ok h.1 h.2.1 h1, h1, Except.ok.injEq, Option.some.injEq]
    exact ⟨fun h' => ⟨h.1, by omega, h.2.1, by omega, h'⟩, fun h' => h'.2.2.2.2⟩
  · rw [accessSpec_bad hs h]
    constructor
    · intro h'
      cases h'
    · rintro ⟨h1, h2, h3, h4, -⟩
      exact absurd ⟨h1, h3, by omega, by omega⟩ h

/-- C32: `At` succeeds on every valid index. -/
theorem at_total {e : Expr R} (he : e.Canon) (hs : e.Shape r c) {i j : ℤ}
    (hi : 0 ≤ i ∧ i < r) (hj : 0 ≤ j ∧ j < c) : ∃ a, e.at i j = .ok a := by
  obtain ⟨a, h1, -⟩ := (EArr.self hs).get (i := i.toNat) (j := j.toNat) (by omega) (by omega)
  exact ⟨a, (at_ok_iff (by omega) (by omega) he hs i j a).mpr ⟨hi.1, hi.2, hj.1, hj.2, h1⟩⟩

/-- C32: every other index is rejected as out of bounds. -/
theorem at_out_of_bounds {e : Expr R} (hr : 0 < r) (hc : 0 < c) (he : e.Canon) (hs : e.Shape r c)
    {i j : ℤ} (h : ¬ (0 ≤ i ∧ i < r ∧ 0 ≤ j ∧ j < c)) : e.at i j = .error .index := by
  rw [Expr.at_spec he hs hr hc, accessSpec_bad hs (by omega)]

/-- C32: `AtVec` succeeds exactly on the valid indices and returns the entry there. -/
theorem atVec_ok_iff {a : Vec R} (hr : 0 < r) (he : (Expr.v a).Canon) (hs : (Expr.v a).Shape r 1)
    (i : ℤ) (x : Scalar R) : a.atVec i = .ok x ↔
      0 ≤ i ∧ i < r ∧ (Expr.v a).entry i.toNat 0 = some x := by
  rw [Vec.atVec_spec he hs hr, ← Expr.at_spec he hs hr (by decide) i 0,
    at_ok_iff hr (by decide) he hs]
  constructor
  · rintro ⟨h1, h2, -, -, h3⟩
    exact ⟨h1, h2, h3⟩
  · rintro ⟨h1, h2, h3⟩
    exact ⟨h1, h2, by decide, by decide, h3⟩

/-- C32: `AtVec` rejects every other index as out of bounds. -/
theorem atVec_out_of_bounds {a : Vec R} (hr : 0 < r) (he : (Expr.v a).Canon)
    (hs : (Expr.v a).Shape r 1) {i : ℤ} (h : ¬ (0 ≤ i ∧ i < r)) : a.atVec i = .error .index := by
  rw [Vec.atVec_spec he hs hr, accessSpec_bad hs (by omega)]

/-! ### C31: dimension checks -/

/-- C31: the check for sums and differences. -/
theorem checkDimAdd_iff (l m : ℕ × ℕ) :
    checkDimAdd l m = .ok () ↔ l = m ∨ l = (1, 1) ∨ m = (1, 1) := by
  unfold checkDimAdd isScalarDims
  simp only [decide_eq_true_eq]
  split
  · rename_i h
    exact ⟨fun _ => h, fun _ => rfl⟩
  · rename_i h
    exact ⟨fun h' => (by cases h'), fun h' => absurd h' h⟩

/-- C31: the check for products. -/
theorem checkDimMul_iff (l m : ℕ × ℕ) :
    checkDimMul l m = .ok () ↔ l.2 = m.1 ∨ l = (1, 1) ∨ m = (1, 1) := by
  unfold checkDimMul isScalarDims
  simp only [decide_eq_true_eq]
  split
  · rename_i h
    exact ⟨fun _ => h, fun _ => rfl⟩
  · rename_i h
    exact ⟨fun h' => (by cases h'), fun h' => absurd h' h⟩

/-- C31: the check for stacking compares neighbours, which is the same as all being equal. -/
theorem checkNeighbours_iff (l : List ℕ) : checkNeighbours l = .ok () ↔ ∀ a ∈ l, ∀ b ∈ l, a = b := by
  constructor
  · intro h
    suffices hs : ∀ a l, checkNeighbours (a :: l) = .ok () → ∀ b ∈ l, b = a by
      cases l with
      | nil => simp
      | cons a l =>
        have := hs a l h
        intro x hx y hy
        have e1 : x = a := by
          rcases List.mem_cons.mp hx with rfl | hx
          · rfl
          · exact this x hx
        have e2 : y = a := by
          rcases List.mem_cons.mp hy with rfl | hy
          · rfl
          · exact this y hy
        rw [e1, e2]
    intro a l
    induction l generalizing a with
    | nil => simp
    | cons b l ih =>
      intro h1
      unfold checkNeighbours at h1
      split at h1
      · rename_i hba
        subst hba
        intro x hx
        rcases List.mem_cons.mp hx with rfl | hx
        · rfl
        · exact ih _ h1 x hx
      · cases h1
  · intro h
    cases l with
    | nil => rfl
    | cons a l => exact checkNeighbours_replicate (n := a) fun b hb => h b hb a (by simp)

/-! ### C29: stacking -/

private theorem hdims {e : Expr R} (hr : 0 < r) (he : e.Canon) (hs : e.Shape r c) :
    e.dims = .ok (r, c) :=
  EArr.dims ((EArr.self hs).and_all he) hr fun _ _ a ha => (good_of_univ ha.2).check

private theorem neighbours_error (l : List ℕ) : checkNeighbours l = .ok () ∨
    checkNeighbours l = .error .dimension := by
  induction l with
  | nil => left; rfl
  | cons a l ih =>
    cases l with
    | nil => left; rfl
    | cons b l =>
      unfold checkNeighbours
      split
      · exact ih
      · right; rfl

/-- C29, C31: expressions of different heights are not put side by side. -/
theorem hstack_dimension {es : List (Expr R)}
    (h : ∀ e ∈ es, e.Canon ∧ ∃ r c, 0 < r ∧ e.Shape r c)
    (hne : ∃ e ∈ es, ∃ e' ∈ es, e.grid.length ≠ e'.grid.length) : hstack es = .error .dimension := by
  have hd : ∀ e ∈ es, e.dims = .ok (e.grid.length, e.width) := by
    intro e he
    obtain ⟨h1, r, c, h2, h3⟩ := h e he
    rw [h3.width h2, h3.1]
    exact hdims h2 h1 h3
  obtain ⟨e, h1, e', h2, h3⟩ := hne
  have h0 : es ≠ [] := List.ne_nil_of_mem h1
  unfold hstack
  rw [if_neg h0]
  simp only [mapM_eq es hd, Go.ok_bind]
  rcases neighbours_error ((es.map fun e => (e.grid.length, e.width)).map (·.1)) with h4 | h4
  · refine absurd ((checkNeighbours_iff _).mp h4 e.grid.length ?_ e'.grid.length ?_) h3
    · simp only [List.map_map, List.mem_map]
      exact ⟨e, h1, rfl⟩
    · simp only [List.map_map, List.mem_map]
      exact ⟨e', h2, rfl⟩
  · rw [h4]
    rfl

/-- C29, C31: expressions of different widths are not put on top of each other. -/
theorem vstack_dimension {es : List (Expr R)}
    (h : ∀ e ∈ es, e.Canon ∧ ∃ r c, 0 < r ∧ e.Shape r c)
    (hne : ∃ e ∈ es, ∃ e' ∈ es, e.width ≠ e'.width) : vstack es = .error .dimension := by
  have hd : ∀ e ∈ es, e.dims = .ok (e.grid.length, e.width) := by
    intro e he
    obtain ⟨h1, r, c, h2, h3⟩ := h e he
    rw [h3.width h2, h3.1]
    exact hdims h2 h1 h3
  obtain ⟨e, h1, e', h2, h3⟩ := hne
  have h0 : es ≠ [] := List.ne_nil_of_mem h1
  unfold vstack
  rw [if_neg h0]
  simp only [mapM_eq es hd, Go.ok_bind]
  rcases neighbours_error ((es.map fun e => (e.grid.length, e.width)).map (·.2)) with h4 | h4
  · refine absurd ((checkNeighbours_iff _).mp h4 e.width ?_ e'.width ?_) h3
    · simp only [List.map_map, List.mem_map]
      exact ⟨e, h1, rfl⟩
    · simp only [List.map_map, List.mem_map]
      exact ⟨e', h2, rfl⟩
  · rw [h4]
    rfl

/-- C29: stacking nothing is rejected. -/
theorem stack_empty : hstack ([] : List (Expr R)) = .error .other ∧
    vstack ([] : List (Expr R)) = .error .other := ⟨rfl, rfl⟩

/-! ### C30: Concretize -/

/-- C30: an empty list and an empty or ragged table are rejected. -/
theorem concretizeVec_empty : ∃ x, concretizeVec ([] : List (Scalar R)) = .error x := ⟨_, rfl⟩

theorem concretizeMat_ragged {rows : List (List (Scalar R))}
    (h : rows = [] ∨ ∃ a ∈ rows, ∃ b ∈ rows, a.length ≠ b.length) : ∃ x, concretizeMat rows = .error x := by
  rcases h with rfl | ⟨a, ha, b, hb, hab⟩
  · exact ⟨_, rfl⟩
  · cases rows with
    | nil => simp at ha
    | cons r0 l =>
      have hex : ∃ x ∈ r0 :: l, x.length ≠ r0.length := by
        by_contra hcon
        push Not at hcon
        exact hab ((hcon a ha).trans (hcon b hb).symm)
      have hfor : ∀ l : List (List (Scalar R)), (∃ x ∈ l, x.length ≠ r0.length) →
          l.forM (fun row => if row.length ≠ r0.length then throw Err.other else pure ())
            = (.error .other : Go Unit) := by
        intro l
        induction l with
        | nil => simp
        | cons x l ih =>
          intro hx
          show ((if x.length ≠ r0.length then throw Err.other else pure ()) >>= fun _ =>
            l.forM (fun row => if row.length ≠ r0.length then throw Err.other else pure ()) : Go Unit) = _
          by_cases h1 : x.length ≠ r0.length
          · rw [if_pos h1]
            rfl
          · rw [if_neg h1, Go.pure_eq, Go.ok_bind]
            refine ih ?_
            obtain ⟨y, hy, hy'⟩ := hx
            rcases List.mem_cons.mp hy with rfl | hy
            · exact absurd hy' h1
            · exact ⟨y, hy, hy'⟩
      refine ⟨.other, ?_⟩
      unfold concretizeMat
      simp only [hfor _ hex, Go.err_bind]

/-- C30, structure (every number type): every non-empty list of scalars becomes a vector. -/
theorem concretizeVec_total {l : List (Scalar R)} (h : l ≠ []) (hc : ∀ a ∈ l, a.Canon) :
    ∃ v, concretizeVec l = .ok v ∧ (Expr.v v).Shape l.length 1 ∧ (Expr.v v).Canon ∧
      ∀ x, (Expr.v v).Mentions x → ∃ a ∈ l, a.Mentions x := by
  have hl : LArr l.length (fun _ => Good (fun x => ∃ a ∈ l, a.Mentions x) Set.univ) l :=
    LArr.of_all rfl fun _ a _ ha => good_mentions (hc a ha) a.termsIn_univ fun v hv => ⟨a, ha, hv⟩
  obtain ⟨v, h1, h2⟩ := concretizeVec_conv hl (List.length_pos_iff.mpr h)
    fun _ _ => stable_good.toConv
  exact ⟨v, h1, egood_spec (earr_v_iff.mpr h2)⟩

/-- C30, structure: every non-empty rectangular table of scalars becomes a matrix. -/
theorem concretizeMat_total {rows : List (List (Scalar R))} (hr : rows.length = r) (hr0 : 0 < r)
    (hrow : ∀ row ∈ rows, row.length = c) (hc : ∀ row ∈ rows, ∀ a ∈ row, a.Canon) :
    ∃ m, concretizeMat rows = .ok m ∧ (Expr.m m).Shape r c ∧ (Expr.m m).Canon ∧
      ∀ x, (Expr.m m).Mentions x → ∃ row ∈ rows, ∃ a ∈ row, a.Mentions x := by
  have hl : Arr r c (fun _ _ => Good (fun x => ∃ row ∈ rows, ∃ a ∈ row, a.Mentions x) Set.univ) rows :=
    LArr.of_all hr fun _ row _ hrow' => LArr.of_all (hrow row hrow') fun _ a _ ha =>
      good_mentions (hc row hrow' a ha) a.termsIn_univ fun v hv => ⟨row, hrow', a, ha, hv⟩
  obtain ⟨v, h1, h2⟩ := concretizeMat_conv hl hr0 fun _ _ _ _ => stable_good.toConv
  exact ⟨v, h1, egood_spec (earr_m_iff.mpr h2)⟩

end Structure

section Value

variable {R : Type} [Field R] [LinearOrder R]

/-- C28: the transpose denotes the transposed matrix. -/
theorem transpose_denotes {e : Expr R} {M : Matrix (Fin r) (Fin c) (MvPolynomial ℕ R)}
    (hr : 0 < r) (hc : 0 < c) (he : e.Canon) (hM : e.Denotes M) :
    ∃ e', e.transpose = .ok e' ∧ e'.Canon ∧ e'.Denotes M.transpose := by
  obtain ⟨e', h1, h2⟩ := Expr.transpose_ok ((denotes_iff.mp hM).and_all he) hr hc
    fun _ _ a ha => (good_of_univ ha.2).check
  refine ⟨e', h1, h2.all fun _ _ _ h => h.2, denotes_iff.mpr (h2.mono fun j i a hj hi ha => ?_)⟩
  have := ha.1
  beta_reduce at this
  rw [this, extM_of _ hi hj, extM_of _ hj hi]
  rfl

private theorem conv_den (f : MvPolynomial ℕ R) : Conv (fun a : Scalar R => a.den = f) where
  poly a h := by rw [Scalar.den_poly, ← h]; exact toPoly_den a
  mono a m h hm := by rw [Scalar.den_mono, ← h]; exact toMono_den hm

private theorem conv_canon_den (f : MvPolynomial ℕ R) :
    Conv (fun a : Scalar R => a.den = f ∧ Good (fun _ => True) Set.univ a) where
  poly a h := ⟨(conv_den f).poly a h.1, stable_good.toConv.poly a h.2⟩
  mono a m h hm := ⟨(conv_den f).mono a m h.1 hm, stable_good.toConv.mono a m h.2 hm⟩

/-- C30: `ConcretizeVectorExpression` succeeds on every non-empty list, well formed or not, and the
entries of the result denote what the given scalars denote. -/
theorem concretizeVec_den {l : List (Scalar R)} (h : l ≠ []) :
    ∃ v, concretizeVec l = .ok v ∧ (Expr.v v).denGrid = l.map fun a => [a.den] := by
  have hl : LArr l.length (fun i a => a.den = (l[i]?.map Scalar.den).getD 0) l :=
    ⟨rfl, fun i a hi => by simp [hi]⟩
  obtain ⟨v, h1, h2, h3⟩ := concretizeVec_conv hl (List.length_pos_iff.mpr h) fun i _ => conv_den _
  refine ⟨v, h1, ?_⟩
  unfold Expr.denGrid Expr.grid
  rw [List.map_map]
  refine List.ext_getElem (by simp [h2]) fun i hi hi' => ?_
  have hi1 : i < v.entries.length := by simpa using hi
  have hi2 : i < l.length := by simpa using hi'
  have := h3 i _ (List.getElem?_eq_getElem hi1)
  beta_reduce at this
  rw [List.getElem?_eq_getElem hi2] at this
  simp only [Option.map_some, Option.getD_some] at this
  simp [this]

omit [LinearOrder R] in
private theorem arr_den {g : List (List (Scalar R))} {f : ℕ → ℕ → MvPolynomial ℕ R}
    (h : Arr r c (fun i j a => a.den = f i j) g) :
    g.map (·.map Scalar.den) = (List.range r).map fun i => (List.range c).map fun j => f i j := by
  refine List.ext_getElem (by simp [h.1]) fun i hi hi' => ?_
  have hi1 : i < g.length := by simpa using hi
  have h1 := h.2 i _ (List.getElem?_eq_getElem hi1)
  refine List.ext_getElem (by simp [h1.1]) fun j hj hj' => ?_
  have hj1 : j < g[i].length := by simpa using hj
  have h2 := h1.2 j _ (List.getElem?_eq_getElem hj1)
  simpa using h2

omit [LinearOrder R] in
private theorem arr_self {g : List (List (Scalar R))} (h : g.length = r)
    (hrow : ∀ row ∈ g, row.length = c) :
    Arr r c (fun i j a => a.den = (((g[i]?).bind (·[j]?)).map Scalar.den).getD 0) g := by
  refine ⟨h, fun i row hi => ⟨hrow row (List.mem_of_getElem? hi), fun j a hj => ?_⟩⟩
  show a.den = (((g[i]?).bind (·[j]?)).map Scalar.den).getD 0
  rw [hi, Option.bind_some, hj]
  rfl

/-- C30: `ConcretizeMatrixExpression` succeeds on every non-empty rectangular table, and the entries
of the result denote what the given scalars denote. -/
theorem concretizeMat_den {rows : List (List (Scalar R))} (hr : rows ≠ [])
    (hrow : ∀ row ∈ rows, row.length = c) :
    ∃ m, concretizeMat rows = .ok m ∧ (Expr.m m).denGrid = rows.map (·.map Scalar.den) := by
  have ha := arr_self rfl hrow
  obtain ⟨m, h1, h2⟩ := concretizeMat_conv ha (List.length_pos_iff.mpr hr) fun _ _ _ _ => conv_den _
  exact ⟨m, h1, (arr_den h2).trans (arr_den ha).symm⟩

private theorem concretizeM_den {g : List (List (Scalar R))} (hr : g.length = r) (hr0 : 0 < r)
    (hrow : ∀ row ∈ g, row.length = c) (hc0 : 0 < c) (hc : ∀ row ∈ g, ∀ a ∈ row, a.Canon) :
    ∃ e, concretizeM g = .ok e ∧ e.Shape r c ∧ e.Canon ∧ e.denGrid = g.map (·.map Scalar.den) := by
  have ha := arr_self hr hrow
  have ha' : Arr r c (fun i j a => a.den = (((g[i]?).bind (·[j]?)).map Scalar.den).getD 0 ∧
      Good (fun _ => True) Set.univ a) g := by
    refine ⟨ha.1, fun i row hi => ⟨(ha.2 i row hi).1, fun j a hj => ⟨(ha.2 i row hi).2 j a hj, ?_⟩⟩⟩
    exact good_of_univ (hc row (List.mem_of_getElem? hi) a (List.mem_of_getElem? hj))
  obtain ⟨e, h1, h2, -⟩ := concretizeM_conv ha' hr0 hc0 (fun _ _ _ _ => conv_canon_den _)
    fun _ _ _ _ _ h => h.2.check
  have h3 : EArr r c (fun i j a => a.den = (((g[i]?).bind (·[j]?)).map Scalar.den).getD 0) e :=
    h2.mono fun _ _ _ _ _ h => h.1
  exact ⟨e, h1, h2.shape, h2.all fun _ _ _ h => (good_iff.mp h.2).1, (arr_den h3).trans (arr_den ha).symm⟩

/-- C29: side by side, row `i` of the result is the concatenation of the rows `i` of the blocks, in
order.  The blocks may be scalars, vectors and matrices of any kinds. -/
theorem hstack_blocks {es : List (Expr R)} (hne : es ≠ []) (hr : 0 < r)
    (h : ∀ e ∈ es, e.Canon ∧ ∃ c, 0 < c ∧ e.Shape r c) :
    ∃ e, hstack es = .ok e ∧ e.Shape r (es.map Expr.width).sum ∧ e.Canon ∧
      ∀ i < r, e.denGrid[i]? = some (es.map fun b => b.denGrid[i]?.getD []).flatten := by
  have hlen : ∀ e ∈ es, ∀ i < r, (e.grid[i]?.getD []).length = e.width := by
    intro e he i hi
    obtain ⟨-, c, -, h3⟩ := h e he
    rw [h3.width hr, List.getElem?_eq_getElem (by rw [h3.1]; exact hi), Option.getD_some]
    exact h3.2 _ (List.getElem_mem _)
  have hsum : 0 < (es.map Expr.width).sum := by
    obtain ⟨e0, es', rfl⟩ := List.exists_cons_of_ne_nil hne
    obtain ⟨-, c, h2, h3⟩ := h e0 (by simp)
    rw [List.map_cons, List.sum_cons, h3.width hr]
    omega
  rw [hstack_eq hne hr h]
  obtain ⟨e, h1, h2, h3, h4⟩ := concretizeM_den (r := r) (c := (es.map Expr.width).sum)
    (g := (List.range r).map fun i => (es.map fun e => e.grid[i]?.getD []).flatten) (by simp) hr
    (by
      intro row hrow
      obtain ⟨i, hi, rfl⟩ := List.mem_map.mp hrow
      rw [List.length_flatten, List.map_map]
      congr 1
      exact List.map_congr_left fun e he => hlen e he i (List.mem_range.mp hi)) hsum
    (by
      intro row hrow a ha
      obtain ⟨i, hi, rfl⟩ := List.mem_map.mp hrow
      obtain ⟨row', h5, h6⟩ := List.mem_flatten.mp ha
      obtain ⟨e, h7, rfl⟩ := List.mem_map.mp h5
      obtain ⟨h8, c, -, h9⟩ := h e h7
      rw [List.getElem?_eq_getElem (by rw [h9.1]; exact List.mem_range.mp hi), Option.getD_some] at h6
      exact h8 _ (List.getElem_mem _) a h6)
  refine ⟨e, h1, h2, h3, fun i hi => ?_⟩
  rw [h4, List.getElem?_map, List.getElem?_map, List.getElem?_range hi]
  simp only [Option.map_some, List.map_flatten, List.map_map]
  congr 2
  refine List.map_congr_left fun b hb => ?_
  obtain ⟨-, c, -, h9⟩ := h b hb
  have hi' : i < b.grid.length := by rw [h9.1]; exact hi
  simp [Expr.denGrid, hi']

/-- C29: on top of each other, the rows of the result are the rows of the blocks, in order. -/
theorem vstack_blocks {es : List (Expr R)} (hne : es ≠ []) (hc : 0 < c)
    (h : ∀ e ∈ es, e.Canon ∧ ∃ r, 0 < r ∧ e.Shape r c) :
    ∃ e, vstack es = .ok e ∧ e.Shape (es.map fun b => b.grid.length).sum c ∧ e.Canon ∧
      e.denGrid = (es.map Expr.denGrid).flatten := by
  have hsum : 0 < (es.map fun b => b.grid.length).sum := by
    obtain ⟨e0, es', rfl⟩ := List.exists_cons_of_ne_nil hne
    obtain ⟨-, r, h2, h3⟩ := h e0 (by simp)
    rw [List.map_cons, List.sum_cons, h3.1]
    omega
  rw [vstack_eq hne hc h]
  obtain ⟨e, h1, h2, h3, h4⟩ := concretizeM_den (r := (es.map fun b => b.grid.length).sum) (c := c)
    (g := (es.map Expr.grid).flatten)
    (by rw [List.length_flatten, List.map_map]; rfl) hsum
    (by
      intro row hrow
      obtain ⟨g, h5, h6⟩ := List.mem_flatten.mp hrow
      obtain ⟨e, h7, rfl⟩ := List.mem_map.mp h5
      obtain ⟨-, r, -, h9⟩ := h e h7
      exact h9.2 row h6) hc
    (by
      intro row hrow a ha
      obtain ⟨g, h5, h6⟩ := List.mem_flatten.mp hrow
      obtain ⟨e, h7, rfl⟩ := List.mem_map.mp h5
      exact (h e h7).1 row h6 a ha)
  refine ⟨e, h1, h2, h3, ?_⟩
  rw [h4, List.map_flatten, List.map_map]
  rfl

/-! ### C46: Power of a matrix -/

section Power

variable {n : ℕ}

private theorem identityRows_arr (n : ℕ) : MArr n n (fun i j a => GoodDen (fun _ => True) ∅
    (extM (1 : Matrix (Fin n) (Fin n) (MvPolynomial ℕ R)) i j) a) (.k (identityRows n)) := by
  refine Arr.map_iff.mpr ?_
  unfold identityRows
  refine (LArr.range n).map fun i i' hi hi' => (LArr.range n).map fun j j' hj hj' => ?_
  subst hi' hj'
  refine ⟨trivial, ?_⟩
  rw [extM_of _ hi hj, Scalar.den_k, Matrix.one_apply]
  by_cases h : i' = j'
  · subst h
    rw [if_pos rfl, if_pos rfl]
    exact C_1
  · rw [if_neg h, if_neg (by simpa using h)]
    exact C_0

private theorem power_start (n : ℕ) (hn : 0 < n) :
    ∃ m, kmPlus (identityRows n) (.s (.k (GoNum.zero : R))) = .ok (.m m) ∧
      MArr n n (fun i j a => GoodDen (fun _ => True) ∅
        (extM (1 : Matrix (Fin n) (Fin n) (MvPolynomial ℕ R)) i j) a) m := by
  obtain ⟨e, h1, h2, m, rfl⟩ := kmPlus_k_ok (c := n) hn hn (identityRows_arr (R := R) n) GoNum.zero
    (Q := fun i j a => GoodDen (fun _ => True) ∅
      (extM (1 : Matrix (Fin n) (Fin n) (MvPolynomial ℕ R)) i j) a) (by
      intro i j x _ _ hx
      refine ⟨trivial, ?_⟩
      rw [← hx.2, Scalar.den_k, Scalar.den_k]
      congr 1
      show (0 : R) * 1 + x = x
      ring)
  exact ⟨m, h1, earr_m_iff.mp h2⟩

/-- C46 for `n = 0`: the identity matrix, for every square matrix. -/
theorem mat_power_zero {a : Mat R} (hn : 0 < n) (ha : (Expr.m a).Canon) (sa : (Expr.m a).Shape n n) :
    ∃ m, a.power 0 = .ok m ∧ (Expr.m m).Canon ∧
      (Expr.m m).Denotes (1 : Matrix (Fin n) (Fin n) (MvPolynomial ℕ R)) := by
  have h1 := earr_m_iff.mp (egood_of sa ha (P := fun _ => True) fun _ _ => trivial)
  obtain ⟨m, h2, h3⟩ := power_start (R := R) n hn
  refine ⟨m, ?_, ?_⟩
  · unfold Mat.power
    simp only [h1.check hn fun _ _ _ h => h.check, h1.dims hn fun _ _ _ h => h.check, Go.ok_bind]
    rw [if_neg (by simp), if_neg (by decide), if_neg (by omega), h2]
    rfl
  · obtain ⟨h4, -, h5⟩ := eden_spec (earr_m_iff.mpr h3)
    exact ⟨h4, h5⟩

/-- C46, partial: for matrices of at least two rows whose powers keep their terms in
rearrangement-free families `D 0, D 1, ...`, `Power(k)` denotes the `k`-th power of the matrix.  The
full statement drops the families and includes 1 by 1 matrices. -/
theorem mat_power_partial {a : Mat R} {M : Matrix (Fin n) (Fin n) (MvPolynomial ℕ R)}
    {D : ℕ → Set (ℕ →₀ ℕ)} {Da : Set (ℕ →₀ ℕ)} {k : ℕ} (hn : 1 < n)
    (hp : ∀ i < k, ProdIn (D i) Da (D (i + 1))) (hD : ∀ i < k, RearrFree (D (i + 1)))
    (ha : (Expr.m a).Canon) (ta : (Expr.m a).TermsIn Da) (da : (Expr.m a).Denotes M) :
    ∃ m, a.power k = .ok m ∧ (Expr.m m).Canon ∧ (Expr.m m).TermsIn (D k) ∧
      (Expr.m m).Denotes (M ^ k) := by
  have h1 := earr_m_iff.mp (eden_of ha ta da)
  obtain ⟨m0, h2, h3⟩ := power_start (R := R) n (by omega)
  have key : ∀ i ≤ k, ∃ m, (List.range i).foldlM (fun (acc : Mat R) _ => do
      match ← acc.mul (.m a) with
      | .m b => pure b
      | _ => throw Err.typeAssert) m0 = (.ok m : Go (Mat R)) ∧ (Expr.m m).Canon ∧ (Expr.m m).TermsIn (D i) ∧
        (Expr.m m).Denotes (M ^ i) := by
    intro i
    induction i with
    | zero =>
      intro _
      refine ⟨m0, rfl, ?_⟩
      rw [pow_zero]
      obtain ⟨h4, h5, h6⟩ := eden_spec (earr_m_iff.mpr h3)
      refine ⟨h4, fun row hrow x hx => ?_, h6⟩
      exact Scalar.TermsIn.mono (Set.empty_subset _) (h5 row hrow x hx)
    | succ i ih =>
      intro hi
      obtain ⟨m, h4, h5, h6, h7⟩ := ih (by omega)
      obtain ⟨e, h8, h9, h10, h11⟩ := mat_mul_partial (hp i hi) (hD i hi) (by omega) (by omega)
        (by omega) h5 h6 h7 ha ta da
      have hm : ∃ m', e = .m m' := by
        obtain ⟨e', h12, -, h13⟩ := Mat.mul_mat_ok (r := n) (c := n) (s := n) (by omega) (by omega)
          (by omega) (earr_m_iff.mp (eden_of h5 h6 h7)) (fun _ _ _ => goodDen_check) h1
          (fun _ _ _ => goodDen_check) (I := fun _ _ _ => Good (fun _ => True) Set.univ)
          (fun _ _ _ _ => trivial) (fun _ _ _ _ => stable_good)
          fun _ _ _ _ x y _ _ _ hacc hx hy =>
            (Scalar.mul_good prodIn_univ (hx.1.weaken (fun _ _ => trivial) (Set.subset_univ _))
              (hy.1.weaken (fun _ _ => trivial) (Set.subset_univ _))).mono
              fun _ ht => Scalar.plus_good hacc ht
        have h8' : m.mul (.m a) = .ok e := h8
        rw [h8', Except.ok.injEq] at h12
        subst h12
        exact h13.2.2 (by omega)
      obtain ⟨m', rfl⟩ := hm
      refine ⟨m', ?_, h9, h10, by rw [pow_succ]; exact h11⟩
      rw [List.range_succ, List.foldlM_append, h4, Go.ok_bind]
      simp only [List.foldlM_cons, List.foldlM_nil]
      rw [show m.mul (.m a) = .ok (.m m') from h8]
      rfl
  obtain ⟨m, h4, h5⟩ := key k (le_refl k)
  refine ⟨m, ?_, h5⟩
  unfold Mat.power
  simp only [h1.check (by omega) fun _ _ _ h => goodDen_check h,
    h1.dims (by omega) fun _ _ _ h => goodDen_check h, Go.ok_bind]
  rw [if_neg (by simp), if_neg (by omega), if_neg (by omega), h2]
  simp only [Go.pure_eq, Go.ok_bind, Int.toNat_natCast]
  exact h4

/-- C46 for matrices of constants: every exponent. -/
theorem kmat_power {rows : List (List R)} {M : Matrix (Fin n) (Fin n) (MvPolynomial ℕ R)} (hn : 1 < n)
    (k : ℕ) (da : (Expr.m (.k rows)).Denotes M) :
    ∃ m, (Mat.k rows).power k = .ok m ∧ (Expr.m m).Canon ∧ (Expr.m m).Denotes (M ^ k) := by
  have hk : ∀ q : Scalar R → Prop, (∀ x, q (.k x)) → (Expr.m (.k rows)).All q := by
    intro q hq row hrow a ha
    obtain ⟨row', -, rfl⟩ := List.mem_map.mp hrow
    obtain ⟨x, -, rfl⟩ := List.mem_map.mp ha
    exact hq x
  obtain ⟨m, h1, h2, -, h3⟩ := mat_power_partial (D := fun _ => degLE 0) (Da := degLE 0) (k := k) hn
    (fun _ _ => prodIn_degLE 0 0)
    (fun _ _ => rearrFree_degLE_two.mono fun _ hd => le_trans (b := 0) hd (by decide))
    (hk _ fun _ => trivial) (hk _ fun _ => trivial) da
  exact ⟨m, h1, h2, h3⟩

/-- C46 for matrices of polynomials in one variable: every exponent. -/
theorem mat_power_univariate {a : Mat R} {M : Matrix (Fin n) (Fin n) (MvPolynomial ℕ R)} (x : ℕ)
    (hn : 1 < n) (k : ℕ) (ha : (Expr.m a).Canon) (ta : (Expr.m a).TermsIn (univ1 x))
    (da : (Expr.m a).Denotes M) :
    ∃ m, a.power k = .ok m ∧ (Expr.m m).Canon ∧ (Expr.m m).Denotes (M ^ k) := by
  obtain ⟨m, h1, h2, -, h3⟩ := mat_power_partial (D := fun _ => univ1 x) (k := k) hn
    (fun _ _ => prodIn_univ1 x) (fun _ _ => rearrFree_univ1 x) ha ta da
  exact ⟨m, h1, h2, h3⟩

/-- C46 for the square of a matrix of affine entries. -/
theorem mat_power_two {a : Mat R} {M : Matrix (Fin n) (Fin n) (MvPolynomial ℕ R)}
    (hn : 1 < n) (ha : (Expr.m a).Canon) (ta : (Expr.m a).TermsIn (degLE 1))
    (da : (Expr.m a).Denotes M) :
    ∃ m, a.power 2 = .ok m ∧ (Expr.m m).Canon ∧ (Expr.m m).Denotes (M ^ 2) := by
  obtain ⟨m, h1, h2, -, h3⟩ := mat_power_partial (D := fun i => degLE i) (k := 2) hn
    (fun i _ => prodIn_degLE i 1)
    (fun i hi => rearrFree_degLE_two.mono fun _ hd => le_trans (b := i + 1) hd (by omega)) ha ta da
  exact ⟨m, h1, h2, h3⟩

end Power

end Value

section Reject

variable {R : Type} [GoNum R]

/-- C46: a matrix that is not square is rejected. -/
theorem mat_power_not_square {a : Mat R} (hr : 0 < r) (hne : r ≠ c) (ha : (Expr.m a).Canon)
    (sa : (Expr.m a).Shape r c) (k : ℤ) : ∃ x, a.power k = .error x := by
  have h1 := earr_m_iff.mp (egood_of sa ha (P := fun _ => True) fun _ _ => trivial)
  refine ⟨.other, ?_⟩
  unfold Mat.power
  simp only [h1.check hr fun _ _ _ h => h.check, h1.dims hr fun _ _ _ h => h.check, Go.ok_bind]
  rw [if_pos hne]
  rfl

/-- C46: a negative exponent is rejected. -/
theorem mat_power_negative {a : Mat R} (hr : 0 < r) (ha : (Expr.m a).Canon)
    (sa : (Expr.m a).Shape r c) {k : ℤ} (hk : k < 0) : ∃ x, a.power k = .error x := by
  have h1 := earr_m_iff.mp (egood_of sa ha (P := fun _ => True) fun _ _ => trivial)
  unfold Mat.power
  simp only [h1.check hr fun _ _ _ h => h.check, h1.dims hr fun _ _ _ h => h.check, Go.ok_bind]
  by_cases hne : r = c
  · rw [if_neg (by simpa using hne)]
    simp only [Go.pure_eq, Go.ok_bind]
    rw [if_pos hk]
    exact ⟨_, rfl⟩
  · rw [if_pos hne]
    exact ⟨_, rfl⟩

end Reject

/-! ### Counterexamples -/

/-- C46 fails for 1 by 1 matrices: the product of two of them is a scalar, which the code asserts to
be a matrix. -/
theorem mat_power_one_by_one_panics :
    (Mat.p [[(⟨[wm1 1 0 1]⟩ : Poly ℚ)]]).power 1 = .error .typeAssert ∧
    (Mat.k [[(2 : ℚ)]]).power 3 = .error .typeAssert := by
  decide +kernel

/-! ### Concrete cases -/

example : ∃ e', (Expr.v wVp).transpose = .ok e' ∧ e'.Shape 1 2 ∧ e'.Canon ∧
    ∀ i j, e'.entry j i = (Expr.v wVp).entry i j :=
  transpose_entry (by decide) (by decide) (Expr.okDeg_canon 2 (by decide +kernel)) (by decide)

example : ∃ e' e'', (Expr.m wMm).transpose = .ok e' ∧ e'.transpose = .ok e'' ∧
    e''.grid = (Expr.m wMm).grid :=
  transpose_transpose (r := 2) (c := 2) (by decide) (by decide)
    (Expr.okDeg_canon 2 (by decide +kernel)) (by decide)

example : ∃ e', (Expr.m wMv).transpose = .ok e' ∧ e'.Canon ∧
    e'.Denotes (!![(X 0 : MvPolynomial ℕ ℚ), X 1; X 1, X 2]).transpose :=
  transpose_denotes (by decide) (by decide) (Expr.okDeg_canon 2 (by decide +kernel)) wMv_denotes

example : (Expr.m wMk).at 1 0 = .ok (.k 3) ∧ (Expr.m wMk).at 2 0 = .error .index ∧
    (Expr.m wMk).at 0 (-1) = .error .index :=
  ⟨(at_ok_iff (r := 2) (c := 2) (by decide) (by decide) (Expr.okDeg_canon 2 (by decide +kernel))
      (by decide) 1 0 _).mpr ⟨by decide, by decide, by decide, by decide, by decide +kernel⟩,
    at_out_of_bounds (r := 2) (c := 2) (by decide) (by decide)
      (Expr.okDeg_canon 2 (by decide +kernel)) (by decide) (by decide),
    at_out_of_bounds (r := 2) (c := 2) (by decide) (by decide)
      (Expr.okDeg_canon 2 (by decide +kernel)) (by decide) (by decide)⟩

example : ∃ a, (Expr.v wVp).at 1 0 = .ok a :=
  at_total (r := 2) (c := 1) (Expr.okDeg_canon 2 (by decide +kernel)) (by decide) (by decide) (by decide)

example : wVk.atVec 1 = .ok (.k 3) ∧ wVp.atVec 2 = .error .index :=
  ⟨(atVec_ok_iff (r := 2) (by decide) (Expr.okDeg_canon 2 (by decide +kernel)) (by decide) 1 _).mpr
      ⟨by decide, by decide, by decide +kernel⟩,
    atVec_out_of_bounds (r := 2) (by decide) (Expr.okDeg_canon 2 (by decide +kernel)) (by decide)
      (by decide)⟩

example : checkNeighbours [2, 2, 3] ≠ .ok () := fun h =>
  absurd ((checkNeighbours_iff _).mp h 2 (by simp) 3 (by simp)) (by decide)

/-- A vector, a matrix and another vector, side by side. -/
example : ∃ e, hstack [.v wVv, .m wMk, .v wVp] = .ok e ∧
    e.Shape 2 ([Expr.v wVv, .m wMk, .v wVp].map Expr.width).sum ∧ e.Canon ∧
    ∀ i < 2, e.denGrid[i]? = some ([Expr.v wVv, .m wMk, .v wVp].map
      fun b => b.denGrid[i]?.getD []).flatten :=
  hstack_blocks (by simp) (by decide) (by
    intro e he
    simp only [List.mem_cons, List.not_mem_nil, or_false] at he
    rcases he with rfl | rfl | rfl
    · exact ⟨Expr.okDeg_canon 2 (by decide +kernel), 1, by decide, by decide⟩
    · exact ⟨Expr.okDeg_canon 2 (by decide +kernel), 2, by decide, by decide⟩
    · exact ⟨Expr.okDeg_canon 2 (by decide +kernel), 1, by decide, by decide⟩)

/-- A scalar on top of two vectors. -/
example : ∃ e, vstack [.s (.var wx), .v wVm, .v wVk] = .ok e ∧
    e.Shape ([Expr.s (.var wx), .v wVm, .v wVk].map fun b => b.grid.length).sum 1 ∧ e.Canon ∧
    e.denGrid = ([Expr.s (.var wx), .v wVm, .v wVk].map Expr.denGrid).flatten :=
  vstack_blocks (by simp) (by decide) (by
    intro e he
    simp only [List.mem_cons, List.not_mem_nil, or_false] at he
    rcases he with rfl | rfl | rfl
    · exact ⟨Expr.okDeg_canon 2 (by decide +kernel), 1, by decide, by decide⟩
    · exact ⟨Expr.okDeg_canon 2 (by decide +kernel), 2, by decide, by decide⟩
    · exact ⟨Expr.okDeg_canon 2 (by decide +kernel), 2, by decide, by decide⟩)

example : hstack [Expr.v wVv, .s (.k 1)] = .error .dimension ∧
    vstack [Expr.v wVv, .m wMk] = .error .dimension := by
  refine ⟨hstack_dimension ?_ ⟨_, List.mem_cons_self .., .s (.k 1), by simp, by decide⟩,
    vstack_dimension ?_ ⟨_, List.mem_cons_self .., .m wMk, by simp, by decide⟩⟩
  · intro e he
    simp only [List.mem_cons, List.not_mem_nil, or_false] at he
    rcases he with rfl | rfl
    · exact ⟨Expr.okDeg_canon 2 (by decide +kernel), 2, 1, by decide, by decide⟩
    · exact ⟨Expr.okDeg_canon 2 (by decide +kernel), 1, 1, by decide, by decide⟩
  · intro e he
    simp only [List.mem_cons, List.not_mem_nil, or_false] at he
    rcases he with rfl | rfl
    · exact ⟨Expr.okDeg_canon 2 (by decide +kernel), 2, 1, by decide, by decide⟩
    · exact ⟨Expr.okDeg_canon 2 (by decide +kernel), 2, 2, by decide, by decide⟩

/-- A constant, a variable and a polynomial. -/
example : ∃ v, concretizeVec [Scalar.k (2 : ℚ), .var wx, .poly ⟨[wm1 1 0 1, wm0 5]⟩] = .ok v ∧
    (Expr.v v).denGrid = [Scalar.k (2 : ℚ), .var wx, .poly ⟨[wm1 1 0 1, wm0 5]⟩].map fun a => [a.den] :=
  concretizeVec_den (by simp)

example : ∃ m, concretizeMat [[Scalar.k (2 : ℚ), .var wx], [.var wy, .k 0]] = .ok m ∧
    (Expr.m m).denGrid = [[Scalar.k (2 : ℚ), .var wx], [.var wy, .k 0]].map (·.map Scalar.den) :=
  concretizeMat_den (c := 2) (by simp) (by simp)

example : ∃ x, concretizeMat [[Scalar.k (2 : ℚ), .var wx], [.var wy]] = .error x :=
  concretizeMat_ragged (Or.inr ⟨_, List.mem_cons_self .., [.var wy], by simp, by simp⟩)

example (k : ℕ) : ∃ m, wMk.power k = .ok m ∧ (Expr.m m).Canon ∧
    (Expr.m m).Denotes ((!![(C 1 : MvPolynomial ℕ ℚ), C 2; C 3, C 4]) ^ k) :=
  kmat_power (by decide) k wMk_denotes

example : ∃ m, wMv.power 2 = .ok m ∧ (Expr.m m).Canon ∧
    (Expr.m m).Denotes ((!![(X 0 : MvPolynomial ℕ ℚ), X 1; X 1, X 2]) ^ 2) :=
  mat_power_two (by decide) (Expr.okDeg_canon 2 (by decide +kernel))
    (Expr.okDeg_terms (by decide +kernel)) wMv_denotes

example : ∃ x, (Mat.v [[wx, wy]]).power 2 = .error x :=
  mat_power_not_square (r := 1) (c := 2) (by decide) (by decide)
    (Expr.okDeg_canon 2 (by decide +kernel)) (by decide) 2

example : ∃ x, wMp.power (-1) = .error x :=
  mat_power_negative (r := 2) (c := 2) (by decide) (Expr.okDeg_canon 2 (by decide +kernel)) (by decide)
    (by decide)

/-- The matrix of rows `(x, x)` and `(x, x)`. -/
example (k : ℕ) : ∃ (M : Matrix (Fin 2) (Fin 2) (MvPolynomial ℕ ℚ)) (m : Mat ℚ),
    (Mat.v [[wx, wx], [wx, wx]]).power k = .ok m ∧ (Expr.m m).Canon ∧ (Expr.m m).Denotes (M ^ k) := by
  obtain ⟨M, hM⟩ := Expr.Shape.exists_denotes (show (Expr.m (.v [[wx, wx], [wx, wx]])).Shape 2 2 by decide)
  obtain ⟨m, hm⟩ := mat_power_univariate 0 (by decide) k (Expr.okDeg_canon 2 (by decide +kernel)) (by
    intro row hrow a ha
    have : a = .var wx := by
      obtain ⟨row', h1, rfl⟩ := List.mem_map.mp hrow
      obtain ⟨v, h2, rfl⟩ := List.mem_map.mp ha
      simp only [List.mem_cons, List.not_mem_nil, or_false, or_self] at h1
      subst h1
      simp only [List.mem_cons, List.not_mem_nil, or_false, or_self] at h2
      rw [h2]
    subst this
    exact Finsupp.support_single_subset) hM
  exact ⟨M, m, hm⟩

end Verif
