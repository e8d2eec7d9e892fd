import Verif.Lemmas.ArrDen

/-!
# Lemmas on entries, transposition, stacking and conversion
-/

namespace Verif

open MvPolynomial

variable {R : Type} {r c : ℕ}

/-! ## Entries -/

theorem EArr.self {e : Expr R} (hs : e.Shape r c) : EArr r c (fun i j a => e.entry i j = some a) e := by
  refine ⟨hs.1, fun i row hi => ⟨hs.2 row (List.mem_of_getElem? hi), fun j a hj => ?_⟩⟩
  show (e.grid[i]?).bind (·[j]?) = some a
  rw [hi, Option.bind_some, hj]

theorem EArr.get {e : Expr R} {Q : ℕ → ℕ → Scalar R → Prop} (h : EArr r c Q e) {i j : ℕ} (hi : i < r)
    (hj : j < c) : ∃ a, e.entry i j = some a ∧ Q i j a := by
  obtain ⟨row, h1, h2⟩ := LArr.get h hi
  obtain ⟨a, h3, h4⟩ := h2.get hj
  exact ⟨a, by unfold Expr.entry; rw [h1, Option.bind_some, h3], h4⟩

theorem Expr.Shape.entry_none {e : Expr R} (hs : e.Shape r c) {i j : ℕ} (h : ¬ (i < r ∧ j < c)) :
    e.entry i j = none := by
  unfold Expr.entry
  by_cases hi : i < r
  · have hj : ¬ j < c := fun hj => h ⟨hi, hj⟩
    rw [List.getElem?_eq_getElem (by rw [hs.1]; exact hi), Option.bind_some,
      List.getElem?_eq_none (by rw [hs.2 _ (List.getElem_mem _)]; omega)]
  · rw [List.getElem?_eq_none (by rw [hs.1]; omega)]
    rfl

theorem Expr.Shape.grid_ext {e e' : Expr R} (hs : e.Shape r c) (hs' : e'.Shape r c)
    (h : ∀ i j, i < r → j < c → e.entry i j = e'.entry i j) : e.grid = e'.grid := by
  refine List.ext_getElem (by rw [hs.1, hs'.1]) fun i hi hi' => ?_
  have l1 := hs.2 _ (List.getElem_mem hi)
  have l2 := hs'.2 _ (List.getElem_mem hi')
  refine List.ext_getElem (by rw [l1, l2]) fun j hj hj' => ?_
  have := h i j (by rw [← hs.1]; exact hi) (by rw [← l1]; exact hj)
  unfold Expr.entry at this
  rw [List.getElem?_eq_getElem hi, List.getElem?_eq_getElem hi', Option.bind_some, Option.bind_some,
    List.getElem?_eq_getElem hj, List.getElem?_eq_getElem hj'] at this
  exact Option.some.inj this

/-! ## Transposition -/

theorem transposeRows_ok {α : Type} {Q : ℕ → ℕ → α → Prop} {g : List (List α)} (h : Arr r c Q g) :
    Go.Ok (transposeRows g c) (Arr c r (fun j i => Q i j)) := by
  unfold transposeRows
  refine LArr.mapM (LArr.range c) fun j a hj ha => ?_
  subst ha
  exact LArr.mapM h fun i row _ hrow => hrow.goGet hj

section
variable [GoNum R] {Q : ℕ → ℕ → Scalar R → Prop}

theorem Expr.transpose_ok {e : Expr R} (h : EArr r c Q e) (hr : 0 < r) (hc : 0 < c)
    (hQ : ∀ i j x, Q i j x → x.check = .ok ()) :
    Go.Ok e.transpose (EArr c r (fun j i => Q i j)) := by
  cases e with
  | s a =>
    have h1 : 1 = r := h.1
    have h2 := Arr.rowLen h (row := [a]) (by simp [Expr.grid])
    simp only [List.length_singleton] at h2
    subst h1 h2
    have h3 := earr_s_iff.mp h
    have h4 := hQ 0 0 a h3
    cases a with
    | k d => exact Go.ok_pure (earr_s h3)
    | var v => exact Go.ok_pure (earr_s h3)
    | mono m =>
      show Go.Ok (m.check >>= fun _ => pure _) _
      rw [show m.check = .ok () from h4, Go.ok_bind]
      exact Go.ok_pure (earr_s h3)
    | poly p =>
      show Go.Ok (p.check >>= fun _ => pure _) _
      rw [show p.check = .ok () from h4, Go.ok_bind]
      exact Go.ok_pure (earr_s h3)
  | v a =>
    obtain rfl := earr_v_cols hr h
    have h1 := earr_v_iff.mp h
    have h2 := h1.check hr fun i x hx => hQ i 0 x hx
    have key : ∀ m : Mat R, m.entries = [a.entries] → EArr 1 r (fun j i => Q i j) (.m m) := by
      intro m hm
      refine earr_m_iff.mpr ?_
      unfold MArr
      rw [hm]
      exact LArr.cons_iff.mpr ⟨h1, LArr.nil _⟩
    cases a with
    | k l =>
      have hl : l ≠ [] := by
        rintro rfl
        have := h1.1
        simp [Vec.entries] at this
        omega
      simp only [Expr.transpose, Vec.transpose, if_neg hl, Go.pure_eq, Go.ok_bind]
      exact Go.ok_pure (key _ rfl)
    | v l =>
      simp only [Expr.transpose, Vec.transpose, h2, Go.pure_eq, Go.ok_bind]
      exact Go.ok_pure (key _ rfl)
    | m l =>
      simp only [Expr.transpose, Vec.transpose, h2, Go.pure_eq, Go.ok_bind]
      exact Go.ok_pure (key _ rfl)
    | p l =>
      simp only [Expr.transpose, Vec.transpose, h2, Go.pure_eq, Go.ok_bind]
      exact Go.ok_pure (key _ rfl)
  | m a =>
    have h1 := earr_m_iff.mp h
    have hd := h1.dims hr hQ
    have hrd : ∀ {α : Type} {f : α → Scalar R} {rows : List (List α)},
        Arr r c (fun i j x => Q i j (f x)) rows → ∀ m : List (List α) → Mat R,
        (∀ rows, (m rows).entries = rows.map (·.map f)) →
        Go.Ok (transposeRows rows c >>= fun t => pure (Expr.m (m t))) (EArr c r (fun j i => Q i j)) := by
      intro α f rows ha m hm
      refine Go.Ok.bind (transposeRows_ok ha) fun t ht => Go.ok_pure (earr_m_iff.mpr ?_)
      unfold MArr
      rw [hm]
      exact Arr.map_iff.mpr ht
    cases a with
    | k rows =>
      simp only [Expr.transpose, Mat.transpose, bind_assoc, (Arr.map_iff.mp h1).rowDims hr, Go.pure_eq,
        Go.ok_bind]
      exact Go.Ok.bind (kToDense_ok (Arr.map_iff.mp h1) hr hc) fun ks hks =>
        hrd hks Mat.k fun _ => rfl
    | v rows =>
      simp only [Expr.transpose, Mat.transpose, bind_assoc, hd, Go.pure_eq, Go.ok_bind]
      exact hrd (Arr.map_iff.mp h1) Mat.v fun _ => rfl
    | m rows =>
      simp only [Expr.transpose, Mat.transpose, bind_assoc, hd, Go.pure_eq, Go.ok_bind]
      exact hrd (Arr.map_iff.mp h1) Mat.m fun _ => rfl
    | p rows =>
      simp only [Expr.transpose, Mat.transpose, bind_assoc, hd, Go.pure_eq, Go.ok_bind]
      exact hrd (Arr.map_iff.mp h1) Mat.p fun _ => rfl

/-! ## Indexing -/

theorem goGet_spec {α : Type} (l : List α) (i : Int) :
    goGet l i = if 0 ≤ i then (match l[i.toNat]? with | some a => .ok a | none => .error .index)
      else .error .index := by
  unfold goGet
  by_cases h : i < 0
  · rw [if_pos h, if_neg (by omega)]
    rfl
  · rw [if_neg h, if_pos (by omega)]
    cases l[i.toNat]? <;> rfl

/-- The specification of an indexed access. -/
def accessSpec (e : Expr R) (i j : Int) : Go (Scalar R) :=
  if 0 ≤ i ∧ 0 ≤ j then
    match e.entry i.toNat j.toNat with
    | some a => .ok a
    | none => .error .index
  else .error .index

theorem checkIndexMat_spec (i j : Int) (r c : ℕ) :
    checkIndexMat i j (r, c) = if 0 ≤ i ∧ 0 ≤ j ∧ i.toNat < r ∧ j.toNat < c then .ok ()
      else .error .index := by
  unfold checkIndexMat
  by_cases h1 : i < 0 ∨ (r : Int) ≤ i
  · rw [if_pos h1, if_neg (by omega)]
    rfl
  · rw [if_neg h1]
    by_cases h2 : j < 0 ∨ (c : Int) ≤ j
    · rw [if_pos h2, if_neg (by omega)]
      rfl
    · rw [if_neg h2, if_pos (by omega)]
      rfl

theorem accessSpec_bad {e : Expr R} (hs : e.Shape r c) {i j : Int}
    (h : ¬ (0 ≤ i ∧ 0 ≤ j ∧ i.toNat < r ∧ j.toNat < c)) : accessSpec e i j = .error .index := by
  unfold accessSpec
  by_cases h1 : 0 ≤ i ∧ 0 ≤ j
  · rw [if_pos h1, hs.entry_none (by omega)]
  · rw [if_neg h1]

theorem accessSpec_ok {e : Expr R} {i j : Int} {a : Scalar R} (hi : 0 ≤ i) (hj : 0 ≤ j)
    (h : e.entry i.toNat j.toNat = some a) : accessSpec e i j = .ok a := by
  unfold accessSpec
  rw [if_pos ⟨hi, hj⟩, h]

theorem goGet_bad {α : Type} {l : List α} {i : Int} (h : ¬ (0 ≤ i ∧ i.toNat < l.length)) :
    goGet l i = .error .index := by
  rw [goGet_spec]
  by_cases hi : 0 ≤ i
  · rw [if_pos hi, List.getElem?_eq_none (by omega)]
  · rw [if_neg hi]

theorem goGet2_bad {α : Type} {Q : ℕ → ℕ → α → Prop} {g : List (List α)} (hg : Arr r c Q g) {i j : Int}
    (h : ¬ (0 ≤ i ∧ 0 ≤ j ∧ i.toNat < r ∧ j.toNat < c)) : goGet2 g i j = .error .index := by
  unfold goGet2
  by_cases hi : 0 ≤ i ∧ i.toNat < g.length
  · obtain ⟨row, h1, h2⟩ := LArr.get hg (i := i.toNat) (by rw [← hg.1]; exact hi.2)
    rw [goGet_spec, if_pos hi.1, h1]
    show goGet row j = _
    refine goGet_bad ?_
    rw [h2.1]
    have := hg.1
    omega
  · rw [goGet_bad hi]
    rfl

theorem Expr.at_spec {e : Expr R} (hc : e.Canon) (hs : e.Shape r c) (hr : 0 < r) (hc0 : 0 < c)
    (i j : Int) : e.at i j = accessSpec e i j := by
  by_cases h : 0 ≤ i ∧ 0 ≤ j ∧ i.toNat < r ∧ j.toNat < c
  · have h1 := ((EArr.self hs).and_all hc).at (fun _ _ a ha => (good_of_univ ha.2).check) h.2.2.1 h.2.2.2
    obtain ⟨a, h2, h3⟩ := h1
    rw [Int.toNat_of_nonneg h.1, Int.toNat_of_nonneg h.2.1] at h2
    rw [h2, accessSpec_ok h.1 h.2.1 h3.1]
  · rw [accessSpec_bad hs h]
    have hself := (EArr.self hs).and_all hc
    have hck : ∀ i j a, (e.entry i j = some a ∧ a.Canon) → a.check = .ok () :=
      fun _ _ a ha => (good_of_univ ha.2).check
    have hbad : checkIndexMat i j (r, c) = .error .index := by
      rw [checkIndexMat_spec, if_neg h]
    cases e with
    | s a =>
      have h1 : 1 = r := hs.1
      have h2 : 1 = c := hs.2 [a] (by simp [Expr.grid])
      subst h1 h2
      simp only [Expr.at, hbad, (good_of_univ (hc [a] (by simp [Expr.grid]) a (by simp))).check,
        Go.ok_bind, Go.err_bind]
    | v a =>
      obtain rfl := earr_v_cols hr hself
      have h1 := earr_v_iff.mp hself
      have h2 := h1.check hr fun i x hx => hck i 0 x hx
      have h3 := h1.dims hr fun i x hx => hck i 0 x hx
      have h4 := h1.1
      cases a with
      | k l =>
        have : l.length = r := by simpa [Vec.entries] using h4
        simp only [Expr.at, Vec.at, this, hbad, Go.err_bind]
      | v l =>
        have : l.length = r := by simpa [Vec.entries] using h4
        simp only [Expr.at, Vec.at, h2, this, hbad, Go.err_bind, Go.ok_bind]
      | m l =>
        have : l.length = r := by simpa [Vec.entries] using h4
        simp only [Expr.at, Vec.at, h2, this, hbad, Go.err_bind, Go.ok_bind]
      | p l =>
        simp only [Expr.at, Vec.at, h2, h3, hbad, Go.err_bind, Go.ok_bind]
    | m a =>
      have h1 := earr_m_iff.mp hself
      have h2 := h1.check hr hck
      have h3 := h1.dims hr hck
      cases a with
      | k rows =>
        obtain ⟨ks, h5, h6⟩ := kToDense_ok (Arr.map_iff.mp h1) hr hc0
        simp only [Expr.at, Mat.at, h5, goGet2_bad h6 h, Go.err_bind, Go.ok_bind]
      | v rows =>
        simp only [Expr.at, Mat.at, h2, goGet2_bad (Arr.map_iff.mp h1) h, Go.err_bind, Go.ok_bind]
      | m rows =>
        simp only [Expr.at, Mat.at, h2, goGet2_bad (Arr.map_iff.mp h1) h, Go.err_bind, Go.ok_bind]
      | p rows =>
        simp only [Expr.at, Mat.at, h2, h3, hbad, Go.err_bind, Go.ok_bind]

theorem Vec.atVec_spec {a : Vec R} (hc : (Expr.v a).Canon) (hs : (Expr.v a).Shape r 1) (hr : 0 < r)
    (i : Int) : a.atVec i = accessSpec (.v a) i 0 := by
  have hself := earr_v_iff.mp ((EArr.self hs).and_all hc)
  have hck : ∀ i x, ((Expr.v a).entry i 0 = some x ∧ x.Canon) → x.check = .ok () :=
    fun _ x hx => (good_of_univ hx.2).check
  by_cases h : 0 ≤ i ∧ i.toNat < r
  · obtain ⟨x, h2, h3⟩ := hself.atVec hck h.2
    rw [Int.toNat_of_nonneg h.1] at h2
    rw [h2, accessSpec_ok h.1 (le_refl 0) h3.1]
  · have hb : ¬ (0 ≤ i ∧ (0 : Int) ≤ 0 ∧ i.toNat < r ∧ (0 : Int).toNat < 1) := by
      intro h'
      exact h ⟨h'.1, h'.2.2.1⟩
    rw [accessSpec_bad hs hb]
    have hbad : checkIndexMat i 0 (r, 1) = .error .index := by
      rw [checkIndexMat_spec, if_neg hb]
    have h2 := hself.check hr hck
    have h3 := hself.dims hr hck
    have h4 := hself.1
    cases a with
    | k l =>
      have : l.length = r := by simpa [Vec.entries] using h4
      simp only [Vec.atVec, this, hbad, Go.err_bind]
    | v l =>
      have : l.length = r := by simpa [Vec.entries] using h4
      simp only [Vec.atVec, this, hbad, Go.err_bind]
    | m l =>
      have : l.length = r := by simpa [Vec.entries] using h4
      simp only [Vec.atVec, h2, goGet_bad (l := l) (by rw [this]; exact h), Go.err_bind, Go.ok_bind]
    | p l =>
      have : checkIndexVec i (r, 1) = .error .index := by
        unfold checkIndexVec
        rw [if_pos (by simp only []; omega)]
        rfl
      simp only [Vec.atVec, h2, h3, this, Go.err_bind, Go.ok_bind]

/-! ## Stacking -/

theorem mapM_eq {α β : Type} {f : α → Go β} {g : α → β} (l : List α) (h : ∀ a ∈ l, f a = .ok (g a)) :
    l.mapM f = .ok (l.map g) := by
  induction l with
  | nil => rfl
  | cons a l ih =>
    rw [List.mapM_cons, h a (List.mem_cons_self ..), Go.ok_bind,
      ih fun b hb => h b (List.mem_cons_of_mem _ hb)]
    rfl

theorem mem_zip_self {α : Type} {l : List α} {a b : α} (h : (a, b) ∈ l.zip l) : a = b := by
  induction l with
  | nil => simp at h
  | cons x l ih =>
    rw [List.zip_cons_cons, List.mem_cons] at h
    rcases h with h | h
    · cases h; rfl
    · exact ih h

theorem Expr.row_eq {e : Expr R} (hc : e.Canon) (hs : e.Shape r c) (hr : 0 < r) (hc0 : 0 < c) {i : ℕ}
    (hi : i < r) : e.row i c = .ok (e.grid[i]?.getD []) := by
  have hl : i < e.grid.length := by rw [hs.1]; exact hi
  have hrl : e.grid[i].length = c := hs.2 _ (List.getElem_mem hl)
  rw [List.getElem?_eq_getElem hl, Option.getD_some]
  unfold Expr.row
  rw [mapM_eq (g := fun j => if h : j < e.grid[i].length then e.grid[i][j] else .k GoNum.zero)]
  · congr 1
    refine List.ext_getElem (by simp [hrl]) fun j hj hj' => ?_
    simp [hj']
  · intro j hj
    have hj' : j < e.grid[i].length := by rw [hrl]; exact List.mem_range.mp hj
    rw [Expr.at_spec hc hs hr hc0, dif_pos hj']
    refine accessSpec_ok (by omega) (by omega) ?_
    unfold Expr.entry
    simp only [Int.toNat_natCast]
    rw [List.getElem?_eq_getElem hl, Option.bind_some, List.getElem?_eq_getElem hj']

theorem checkNeighbours_replicate {l : List ℕ} {n : ℕ} (h : ∀ a ∈ l, a = n) :
    checkNeighbours l = .ok () := by
  induction l with
  | nil => rfl
  | cons a l ih =>
    cases l with
    | nil => rfl
    | cons b l =>
      unfold checkNeighbours
      rw [if_pos (by rw [h a (by simp), h b (by simp)])]
      exact ih fun x hx => h x (List.mem_cons_of_mem _ hx)

/-- The width of the first row. -/
def Expr.width (e : Expr R) : ℕ := (e.grid.headD []).length

theorem Expr.Shape.width {e : Expr R} (hs : e.Shape r c) (hr : 0 < r) : e.width = c := by
  unfold Expr.width
  obtain ⟨h1, h2⟩ := hs
  cases hg : e.grid with
  | nil => rw [hg] at h1; simp at h1; omega
  | cons x l => rw [hg] at h2; exact h2 x (by simp)

/-- The table built by `HStack`. -/
theorem hstack_eq {es : List (Expr R)} (hne : es ≠ []) (hr : 0 < r)
    (h : ∀ e ∈ es, e.Canon ∧ ∃ c, 0 < c ∧ e.Shape r c) :
    hstack es = concretizeM ((List.range r).map fun i => (es.map fun e => e.grid[i]?.getD []).flatten) := by
  have hd : ∀ e ∈ es, e.dims = .ok (r, e.width) := by
    intro e he
    obtain ⟨h1, c, h2, h3⟩ := h e he
    rw [h3.width hr]
    exact (EArr.dims ((EArr.self h3).and_all h1) hr fun _ _ a ha => (good_of_univ ha.2).check)
  unfold hstack
  rw [if_neg hne]
  simp only [mapM_eq es hd, Go.ok_bind]
  rw [checkNeighbours_replicate (n := r) (by
    intro a ha
    simp only [List.map_map, List.mem_map] at ha
    obtain ⟨e, -, rfl⟩ := ha
    rfl), Go.ok_bind]
  obtain ⟨e0, es', rfl⟩ := List.exists_cons_of_ne_nil hne
  simp only [List.map_cons, Go.pure_eq, Go.ok_bind]
  rw [mapM_eq (g := fun i => ((e0 :: es').map fun e => e.grid[i]?.getD []).flatten)]
  · simp only [Go.ok_bind, List.map_cons]
  · intro i hi
    have hi' := List.mem_range.mp hi
    rw [mapM_eq (g := fun ed : Expr R × (ℕ × ℕ) => ed.1.grid[i]?.getD [])]
    · simp only [Go.ok_bind]
      congr 2
      show (((e0 :: es').zip ((e0 :: es').map fun e => (r, e.width))).map
        fun ed => ed.1.grid[i]?.getD []) = _
      rw [List.zip_map_right, List.map_map]
      have : ((fun ed : Expr R × (ℕ × ℕ) => ed.1.grid[i]?.getD []) ∘
          Prod.map id fun e : Expr R => (r, e.width)) = (fun e => e.grid[i]?.getD []) ∘ Prod.fst := by
        funext x
        rfl
      rw [this, ← List.map_map, List.map_fst_zip (le_refl _)]
    · intro ed hed
      have hm : ed ∈ (e0 :: es').zip ((e0 :: es').map fun e => (r, e.width)) := hed
      rw [List.zip_map_right] at hm
      obtain ⟨⟨e, e'⟩, hm1, rfl⟩ := List.mem_map.mp hm
      have hee : e = e' := by
        exact mem_zip_self hm1
      subst hee
      obtain ⟨h1, c, h2, h3⟩ := h e (List.of_mem_zip hm1).1
      show e.row i e.width = _
      rw [h3.width hr]
      exact Expr.row_eq h1 h3 hr h2 hi'

/-- The table built by `VStack`. -/
theorem vstack_eq {es : List (Expr R)} (hne : es ≠ []) (hc : 0 < c)
    (h : ∀ e ∈ es, e.Canon ∧ ∃ r, 0 < r ∧ e.Shape r c) :
    vstack es = concretizeM (es.map Expr.grid).flatten := by
  have hd : ∀ e ∈ es, e.dims = .ok (e.grid.length, c) := by
    intro e he
    obtain ⟨h1, r, h2, h3⟩ := h e he
    rw [h3.1]
    exact (EArr.dims ((EArr.self h3).and_all h1) h2 fun _ _ a ha => (good_of_univ ha.2).check)
  unfold vstack
  rw [if_neg hne]
  simp only [mapM_eq es hd, Go.ok_bind]
  rw [checkNeighbours_replicate (n := c) (by
    intro a ha
    simp only [List.map_map, List.mem_map] at ha
    obtain ⟨e, -, rfl⟩ := ha
    rfl), Go.ok_bind]
  rw [mapM_eq (g := fun ed : Expr R × (ℕ × ℕ) => ed.1.grid)]
  · simp only [Go.ok_bind]
    congr 2
    rw [List.zip_map_right, List.map_map]
    have : ((fun ed : Expr R × (ℕ × ℕ) => ed.1.grid) ∘
        Prod.map id fun e : Expr R => (e.grid.length, c)) = Expr.grid ∘ Prod.fst := by
      funext x
      rfl
    rw [this, ← List.map_map, List.map_fst_zip (le_refl _)]
  · intro ed hed
    rw [List.zip_map_right] at hed
    obtain ⟨⟨e, e'⟩, hm1, rfl⟩ := List.mem_map.mp hed
    have hee : e = e' := by
      exact mem_zip_self hm1
    subst hee
    obtain ⟨h1, r, h2, h3⟩ := h e (List.of_mem_zip hm1).1
    show (List.range e.grid.length).mapM (fun i => e.row i c) = _
    rw [mapM_eq (g := fun i => e.grid[i]?.getD [])]
    · congr 1
      refine List.ext_getElem (by simp) fun i hi hi' => ?_
      have hi'' : i < e.grid.length := hi'
      simp [hi'']
    · intro i hi
      exact Expr.row_eq h1 h3 h2 hc (by rw [← h3.1]; exact List.mem_range.mp hi)

end

end Verif
