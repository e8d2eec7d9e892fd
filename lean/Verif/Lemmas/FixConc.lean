import Verif.Lemmas.Fixed

/-!
# Combining simplified entries gives a simplified array
-/

set_option linter.unusedSectionVars false

namespace Verif

variable {R : Type} [Field R] [LinearOrder R] {S : Type} [GoNum S] {n r c : ℕ}

/-- Well formed and not changed by simplification. -/
def Scalar.Reduced (x : Scalar R) : Prop := SimpTo x x

theorem Scalar.Reduced.canon {x : Scalar R} (h : x.Reduced) : x.Canon := h.1

theorem Scalar.plus_reduced {a b : Scalar R} (ha : a.Canon) (hb : b.Canon) :
    Go.Post (a.plus b) Scalar.Reduced :=
  fun x h => ⟨Scalar.plus_canon ha hb x h, Scalar.plus_fix ha hb x h⟩

theorem Scalar.simp_reduced {a : Scalar R} (ha : a.Canon) : Go.Post a.asSimplified Scalar.Reduced :=
  fun x h => ⟨Scalar.asSimplified_canon ha x h, Scalar.simp_fix ha x h⟩

theorem concretizeVec_fix {l : List (Scalar R)} (h : ∀ x ∈ l, x.Reduced) :
    Go.Post (concretizeVec l) (fun v => (Expr.v v).Fix) := by
  by_cases hl : l = []
  · subst hl
    intro e he
    cases he
  have hp : 0 < l.length := List.length_pos_of_ne_nil hl
  have hL : LArr l.length (fun i => SimpTo (l.getD i (.k 0))) l :=
    ⟨rfl, fun i x hx => by
      have hi : i < l.length := (List.getElem?_eq_some_iff.mp hx).1
      have : l.getD i (.k 0) = x := by simp [List.getD, hx]
      beta_reduce
      rw [this]
      exact h x (List.mem_of_getElem? hx)⟩
  obtain ⟨v, h1, h2⟩ := concretizeVec_ok hL hp fun _ _ => stable_simpTo
  intro v' hv'
  rw [h1, Except.ok.injEq] at hv'
  subst hv'
  have e := VArr.asSimplified_eq h2 hp
  have el : (List.range l.length).map (fun i => l.getD i (.k 0)) = l := by
    refine List.ext_getElem (by simp) fun i h3 h4 => ?_
    simp [h4]
  rw [el, h1] at e
  simp [Expr.Fix, Expr.asSimplified, e, Go.ok_bind, Go.pure_eq]

theorem concretizeMat_fix {g : List (List (Scalar R))} (hr : 0 < r) (hc : 0 < c)
    (h : Arr r c (fun _ _ => Scalar.Reduced) g) :
    Go.Post (concretizeMat g) (fun m => (Expr.m m).Fix) := by
  have hL : Arr r c (fun i j => SimpTo ((g.getD i []).getD j (.k 0))) g :=
    ⟨h.1, fun i row hi => ⟨(h.2 i row hi).1, fun j x hx => by
      have : (g.getD i []).getD j (.k 0) = x := by simp [List.getD, hi, hx]
      beta_reduce
      rw [this]
      exact (h.2 i row hi).2 j x hx⟩⟩
  obtain ⟨v, h1, h2⟩ := concretizeMat_ok hL hr fun _ _ _ _ => stable_simpTo
  intro v' hv'
  rw [h1, Except.ok.injEq] at hv'
  subst hv'
  have e := MArr.asSimplified_eq h2 hr hc
  have el : ((List.range r).map fun i => (List.range c).map fun j => (g.getD i []).getD j (.k 0)) = g := by
    refine List.ext_getElem (by simp [h.1]) fun i h3 h4 => ?_
    rw [List.getElem_map, List.getElem_range]
    have hg : g.getD i [] = g[i] := by simp [h4]
    have hrow : g[i].length = c := h.rowLen (List.getElem_mem h4)
    rw [hg]
    refine List.ext_getElem (by simp [hrow]) fun j h5 h6 => ?_
    simp [h6]
  rw [el, h1] at e
  simp [Expr.Fix, Expr.asSimplified, e, Go.ok_bind, Go.pure_eq]

/-- A single entry is returned as it is. -/
theorem concretizeV_single {x : Scalar S} (h : x.Canon) : concretizeV [x] = .ok (.s x) := by
  have hx := (good_of_univ h).check
  cases x with
  | k d => rfl
  | var v =>
    have : v.check = .ok () := hx
    simp [concretizeV, concretizeVec, Scalar.isPoly, Scalar.isMono, Scalar.isK, Scalar.isVar, Scalar.toVar,
      Go.ok_bind, Go.pure_eq, Vec.dims, Vec.len, Vec.at, Vec.check, this, checkIndexMat, goGet]
  | mono m =>
    have : m.check = .ok () := hx
    simp [concretizeV, concretizeVec, Scalar.isPoly, Scalar.isMono, Scalar.toMono,
      Go.ok_bind, Go.pure_eq, Vec.dims, Vec.len, Vec.at, Vec.check, this, checkIndexMat, goGet]
  | poly p =>
    have : p.check = .ok () := hx
    simp [concretizeV, concretizeVec, Scalar.isPoly, Scalar.toPoly,
      Go.ok_bind, Go.pure_eq, Vec.dims, Vec.len, Vec.at, Vec.check, this, checkIndexMat, goGet]

theorem concretizeV_fix {l : List (Scalar R)} (h : ∀ x ∈ l, x.Reduced) :
    Go.Post (concretizeV l) Expr.Fix := by
  match l with
  | [] => exact fun _ h => by cases h
  | [x] =>
    have hx := h x (by simp)
    rw [concretizeV_single hx.1]
    exact Go.post_pure (Scalar.fix_expr hx.2)
  | x :: y :: l =>
    unfold concretizeV
    refine Go.Post.bind (P := fun v => (Expr.v v).Fix ∧ ∀ d, v.dims = .ok d → d.1 ≠ 1)
      (fun v hv => ⟨concretizeVec_fix h v hv, ?_⟩) fun v hv => Go.post_bind' fun d hd => ?_
    · obtain ⟨u, h1, h2⟩ := concretizeVec_ok (n := (x :: y :: l).length) (Q := fun _ => Good (fun _ => True) Set.univ)
        (LArr.of_all rfl fun _ z _ hz => good_of_univ (h z hz).1) (by simp) fun _ _ => stable_good
      intro d hd
      rw [h1, Except.ok.injEq] at hv
      subst hv
      have := EArr.dims (QQ := fun _ _ => Good (fun _ => True) Set.univ) (earr_v_iff.mpr h2) (by simp)
        fun _ _ _ h => h.check
      replace this : u.dims = _ := this
      rw [this, Except.ok.injEq] at hd
      subst hd
      simp
    · rw [if_neg (hv.2 d hd)]
      exact Go.post_pure hv.1

theorem concretizeVec_m {l : List (Mono R)} (hl : l ≠ []) :
    concretizeVec (l.map Scalar.mono) = .ok (.m l) := by
  have h1 : (l.map (Scalar.mono (R := R))).any Scalar.isPoly = false := by simp [Scalar.isPoly]
  have h2 : (l.map (Scalar.mono (R := R))).any Scalar.isMono = true := by
    obtain ⟨a, ha⟩ := List.exists_mem_of_ne_nil l hl
    exact List.any_eq_true.mpr ⟨_, List.mem_map_of_mem ha, rfl⟩
  have h3 : (l.map Scalar.mono).mapM Scalar.toMono = .ok l := by
    rw [mapM_eq (g := fun x => match x with | .mono m => m | _ => ⟨0, [], []⟩)]
    · simp [Function.comp_def]
    · intro a ha
      obtain ⟨y, -, rfl⟩ := List.mem_map.mp ha
      rfl
  unfold concretizeVec
  rw [if_neg (by simpa using hl)]
  simp only [h1, h2, h3, Bool.false_eq_true, if_false, Bool.true_or, if_true, Go.ok_bind, Go.pure_eq]

theorem concretizeVec_p {l : List (Poly R)} (hl : l ≠ []) :
    concretizeVec (l.map Scalar.poly) = .ok (.p l) := by
  have h2 : (l.map (Scalar.poly (R := R))).any Scalar.isPoly = true := by
    obtain ⟨a, ha⟩ := List.exists_mem_of_ne_nil l hl
    exact List.any_eq_true.mpr ⟨_, List.mem_map_of_mem ha, rfl⟩
  unfold concretizeVec
  rw [if_neg (by simpa using hl)]
  simp [h2, Scalar.toPoly, Go.pure_eq, Function.comp_def]

theorem concretizeMat_p {g : List (List (Poly R))} {Q : ℕ → ℕ → Poly R → Prop} (h : Arr r c Q g)
    (hr : 0 < r) (hc : 0 < c) : concretizeMat (g.map (·.map Scalar.poly)) = .ok (.p g) := by
  have hne : g.flatten ≠ [] := by
    obtain ⟨row, h1, h2⟩ := LArr.get h hr
    obtain ⟨a, h3, -⟩ := h2.get hc
    exact List.ne_nil_of_mem (List.mem_flatten.mpr ⟨row, List.mem_of_getElem? h1, List.mem_of_getElem? h3⟩)
  rw [concretizeMat_rect (Q := fun _ _ _ => True) (Arr.map h fun _ _ _ _ _ _ => trivial) hr]
  have e : (g.map (·.map (Scalar.poly (R := R)))).flatten = g.flatten.map Scalar.poly := by
    rw [List.map_flatten]
  have h1 : (g.flatten.map (Scalar.poly (R := R))).any Scalar.isPoly = true := by
    rw [List.any_map, List.any_eq_true]
    obtain ⟨a, ha⟩ := List.exists_mem_of_ne_nil _ hne
    exact ⟨a, ha, rfl⟩
  have h2 : (g.map (·.map (Scalar.poly (R := R)))).map (·.map Scalar.toPoly) = g := by
    rw [List.map_map]
    refine (List.map_congr_left fun row _ => ?_).trans (List.map_id _)
    simp only [Function.comp_def, List.map_map, Scalar.toPoly, id]
    exact List.map_id _
  simp only [e, h1, if_true, h2, Go.pure_eq]

/-- Converting the entries of a column twice is the same as converting them once. -/
theorem concretizeVec_again {l : List (Scalar R)} {v : Vec R} (h : concretizeVec l = .ok v) :
    concretizeVec v.entries = .ok v := by
  have hv : v.entries.length ≠ 0 → concretizeVec v.entries = .ok v := by
    intro hn
    cases v with
    | k l => exact concretizeVec_k (by rintro rfl; exact hn rfl)
    | v l => exact concretizeVec_v (by rintro rfl; exact hn rfl)
    | m l => exact concretizeVec_m (by rintro rfl; exact hn rfl)
    | p l => exact concretizeVec_p (by rintro rfl; exact hn rfl)
  apply hv
  intro hn
  by_cases hl : l = []
  · subst hl; cases h
  have hp : 0 < l.length := List.length_pos_of_ne_nil hl
  obtain ⟨u, h1, h2⟩ := concretizeVec_conv (n := l.length) (Q := fun _ _ => True)
    (LArr.of_all rfl fun _ _ _ _ => trivial) hp fun _ _ => ⟨fun _ _ => trivial, fun _ _ _ _ => trivial⟩
  rw [h, Except.ok.injEq] at h1
  subst h1
  have := h2.1
  omega

/-- A vector as a matrix with one column. -/
def Vec.asCol : Vec S → Mat S
  | .k l => .k (l.map ([·]))
  | .v l => .v (l.map ([·]))
  | .m l => .m (l.map ([·]))
  | .p l => .p (l.map ([·]))

theorem Vec.asCol_entries (v : Vec S) : v.asCol.entries = v.entries.map ([·]) := by
  cases v <;> simp [Vec.asCol, Mat.entries, Vec.entries, Function.comp_def]

theorem mapM_singletons {α β : Type} {f : α → Go β} (l : List α) :
    (l.map ([·])).mapM (·.mapM f) = (l.mapM f >>= fun l' => pure (l'.map ([·]))) := by
  induction l with
  | nil => rfl
  | cons a l ih =>
    rw [List.map_cons, List.mapM_cons, List.mapM_cons, ih, List.mapM_cons]
    cases f a with
    | error e => rfl
    | ok x =>
      cases l.mapM f with
      | error e => rfl
      | ok y => rfl

theorem flatten_singletons {α : Type} (l : List α) : (l.map ([·])).flatten = l := by
  induction l with
  | nil => rfl
  | cons a l ih => rw [List.map_cons, List.flatten_cons, ih]; rfl

theorem concretizeVec_single {x : Scalar S} {v : Vec S} (h : concretizeVec [x] = .ok v) :
    v.entries = [x] := by
  cases x <;>
    · simp [concretizeVec, Scalar.isPoly, Scalar.isMono, Scalar.isK, Scalar.isVar, Scalar.toVar, Scalar.toK,
        Scalar.toMono, Scalar.toPoly, Go.pure_eq, Go.ok_bind] at h
      subst h
      rfl

theorem concretizeMat_col {l : List (Scalar R)} {v : Vec R} (h : concretizeVec l = .ok v) :
    concretizeMat (l.map ([·])) = .ok v.asCol := by
  have hl : l ≠ [] := by rintro rfl; cases h
  have hA : Arr l.length 1 (fun _ _ _ => True) (l.map ([·])) :=
    LArr.map_iff.mpr (LArr.of_all rfl fun _ _ _ _ => LArr.of_all rfl fun _ _ _ _ => trivial)
  rw [concretizeMat_rect hA (List.length_pos_of_ne_nil hl)]
  have hf : (l.map ([·])).flatten = l := flatten_singletons l
  unfold concretizeVec at h
  rw [if_neg hl] at h
  simp only [hf, mapM_singletons]
  rw [Bool.and_comm (l.any Scalar.isVar)]
  split at h
  · rename_i h1
    rw [if_pos h1]
    cases h
    simp [Vec.asCol, Go.pure_eq, Function.comp_def]
  rename_i h1
  rw [if_neg h1]
  split at h
  · rename_i h2
    rw [if_pos h2]
    cases hm : l.mapM Scalar.toMono with
    | error e => rw [hm] at h; cases h
    | ok y => rw [hm] at h; cases h; rfl
  rename_i h2
  rw [if_neg h2]
  split at h
  · rename_i h3
    rw [if_pos h3]
    cases hm : l.mapM Scalar.toVar with
    | error e => rw [hm] at h; cases h
    | ok y => rw [hm] at h; cases h; rfl
  rename_i h3
  rw [if_neg h3]
  split at h
  · rename_i h4
    rw [if_pos h4]
    cases hm : l.mapM Scalar.toK with
    | error e => rw [hm] at h; cases h
    | ok y => rw [hm] at h; cases h; rfl
  · cases h

theorem concretizeM_fix {g : List (List (Scalar R))} (hr : 0 < r) (hc : 0 < c)
    (h : Arr r c (fun _ _ => Scalar.Reduced) g) : Go.Post (concretizeM g) Expr.Fix := by
  have hG : Arr r c (fun _ _ => Good (fun _ => True) Set.univ) g :=
    h.mono fun _ _ _ _ _ hx => good_of_univ hx.1
  obtain ⟨m, hm, hM⟩ := concretizeMat_ok hG hr fun _ _ _ _ => stable_good
  have hfix := concretizeMat_fix hr hc h m hm
  have hd : m.dims = .ok (r, c) := (earr_m_iff.mpr hM).dims hr fun _ _ _ h => h.check
  by_cases h1 : c = 1
  swap
  · unfold concretizeM
    rw [hm, Go.ok_bind, hd, Go.ok_bind, if_neg (fun h => h1 h.2), if_neg h1]
    exact Go.post_pure hfix
  subst h1
  -- `g` is a column
  obtain ⟨l, rfl⟩ : ∃ l : List (Scalar R), g = l.map ([·]) := by
    refine ⟨g.map (fun row => row.headD (.k 0)), ?_⟩
    rw [List.map_map]
    refine (List.map_id _).symm.trans (List.map_congr_left fun row hrow => ?_)
    have := h.rowLen hrow
    obtain ⟨x, rfl⟩ := List.length_eq_one_iff.mp this
    rfl
  have hl : ∀ x ∈ l, x.Reduced := fun x hx => by
    obtain ⟨i, j, -, -, hs⟩ := h.mem (List.mem_map_of_mem hx) (List.mem_singleton_self x)
    exact hs
  have hlen : l.length = r := by simpa using h.1
  obtain ⟨v, hv, hV⟩ := concretizeVec_ok (n := r) (Q := fun _ => Good (fun _ => True) Set.univ)
    (LArr.of_all hlen fun _ x _ hx => good_of_univ (hl x hx).1) hr fun _ _ => stable_good
  have hcol := concretizeMat_col hv
  rw [hm, Except.ok.injEq] at hcol
  subst hcol
  have hat : ∀ i : ℕ, i < r → ∃ x, v.entries[i]? = some x ∧ v.asCol.at i 0 = .ok x := by
    intro i hi
    have hS : MArr r 1 (fun i j x => Good (fun _ => True) Set.univ x ∧ v.entries[i]? = some x) v.asCol := by
      unfold MArr
      rw [Vec.asCol_entries]
      refine LArr.map_iff.mpr ⟨hV.1, fun k y hk => ⟨rfl, fun j x hx => ?_⟩⟩
      have : j = 0 := by
        have := (List.getElem?_eq_some_iff.mp hx).1
        simpa using this
      subst this
      simp only [List.getElem?_cons_zero, Option.some.injEq] at hx
      subst hx
      exact ⟨hV.2 k y hk, hk⟩
    obtain ⟨x, h3, h4⟩ := MArr.at hS (fun i j x hx => hx.1.check) hi (show 0 < 1 by decide)
    exact ⟨x, h4.2, h3⟩
  unfold concretizeM
  rw [hm, Go.ok_bind, hd, Go.ok_bind]
  by_cases h2 : r = 1
  · rw [if_pos ⟨h2, rfl⟩]
    obtain ⟨x, rfl⟩ := List.length_eq_one_iff.mp (hlen.trans h2)
    have hx := hl x (by simp)
    obtain ⟨y, h5, h6⟩ := hat 0 hr
    have hxy : y = x := by
      rw [concretizeVec_single hv] at h5
      simpa using h5.symm
    subst hxy
    simp only [Nat.cast_zero] at h6
    rw [h6, Go.ok_bind]
    exact Go.post_pure (Scalar.fix_expr hx.2)
  · rw [if_neg (fun h => h2 h.1), if_pos rfl]
    have e : (List.range r).mapM (fun (i : ℕ) => v.asCol.at i 0) = .ok v.entries := by
      rw [mapM_eq (g := fun i => v.entries.getD i (.k 0))]
      · congr 1
        refine List.ext_getElem (by simp [hV.1]) fun i h7 h8 => ?_
        simp [h8]
      · intro i hi
        obtain ⟨x, h7, h8⟩ := hat i (List.mem_range.mp hi)
        rw [h8]
        simp [List.getD, h7]
    rw [e, Go.ok_bind, concretizeVec_again hv]
    exact Go.post_pure (concretizeVec_fix hl v hv)

end Verif
