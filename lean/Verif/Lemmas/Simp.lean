import Verif.Lemmas.ArrOps
import Verif.Lemmas.Shapes
import Verif.Props.NormalForm

/-!
# What simplification of arrays returns

The simplified form of an array is determined by the simplified forms of its entries.
-/

set_option linter.unusedSectionVars false

namespace Verif

variable {R : Type} [Field R] [LinearOrder R]

/-- A polynomial with one term simplifies to the same as the term. -/
theorem Poly.asSimplified_single {m : Mono R} (hm : m.Canon) :
    Poly.asSimplified ⟨[m]⟩ = m.asSimplified := by
  have hg : GoodL (fun _ => True) Set.univ [m] := fun x hx => by
    rw [List.mem_singleton] at hx
    subst hx
    exact good_of_univ (s := .mono x) hm
  obtain ⟨r, h1, q, hq, hqne, hqg, hr⟩ := Poly.asSimplified_ok (p := ⟨[m]⟩) (by simp) hg
  rw [h1, Mono.asSimplified_eq hm]
  congr 1
  by_cases hv : m.vars = []
  · have hst : [m].foldlM simplifyStep (GoNum.zero, []) = .ok (GoNum.add GoNum.zero m.coeff, []) := by
      simp [simplifyStep, Mono.isConstant, hv, Go.pure_eq, Go.ok_bind]
    have hs := Poly.simplify_eq (p := ⟨[m]⟩) (GoodL.check (by simp) hg) hst
    rw [hs, Except.ok.injEq] at hq
    subst hq
    rw [if_pos hv]
    by_cases h0 : m.coeff = 0
    · have e : simplifyList ((GoNum.add GoNum.zero m.coeff : R), []) = [kToMono m.coeff] := by
        simp [simplifyList, simplifyOut, h0]
      simp only [e] at hr
      cases hr with
      | const c h => simp only [List.cons.injEq, kToMono, Mono.mk.injEq, and_true] at h; rw [h]
      | var c v h => simp [kToMono] at h
      | mono m' h hv' => simp only [List.cons.injEq, and_true] at h; subst h; simp [kToMono] at hv'
      | poly h => simp at h
    · have e : simplifyList ((GoNum.add GoNum.zero m.coeff : R), []) = [kToMono m.coeff] := by
        simp [simplifyList, simplifyOut, h0]
      simp only [e] at hr
      cases hr with
      | const c h => simp only [List.cons.injEq, kToMono, Mono.mk.injEq, and_true] at h; rw [h]
      | var c v h => simp [kToMono] at h
      | mono m' h hv' => simp only [List.cons.injEq, and_true] at h; subst h; simp [kToMono] at hv'
      | poly h => simp at h
  · have hst : [m].foldlM simplifyStep (GoNum.zero, []) = .ok (GoNum.zero, [m]) := by
      simp [simplifyStep, Mono.isConstant, hv, Go.pure_eq, insertMono, Go.ok_bind]
    have hs := Poly.simplify_eq (p := ⟨[m]⟩) (GoodL.check (by simp) hg) hst
    rw [hs, Except.ok.injEq] at hq
    subst hq
    rw [if_neg hv]
    by_cases h0 : m.coeff = 0
    · have e : simplifyList ((GoNum.zero : R), [m]) = [kToMono 0] := by
        simp [simplifyList, simplifyOut, h0]
      simp only [e] at hr
      rw [if_pos (by simpa using h0)]
      cases hr with
      | const c h =>
        simp only [List.cons.injEq, kToMono, Mono.mk.injEq, and_true] at h
        rw [← h]; rfl
      | var c v h => simp [kToMono] at h
      | mono m' h hv' => simp only [List.cons.injEq, and_true] at h; subst h; simp [kToMono] at hv'
      | poly h => simp at h
    · have e : simplifyList ((GoNum.zero : R), [m]) = [m] := by
        simp [simplifyList, simplifyOut, h0]
      simp only [e] at hr
      rw [if_neg (by simpa using h0)]
      cases hr with
      | const c h =>
        simp only [List.cons.injEq, and_true] at h
        exact absurd (by rw [h]; rfl) hv
      | var c v h hc =>
        simp only [List.cons.injEq, and_true] at h
        subst h
        rw [if_pos ⟨hc, rfl⟩]
      | mono m' h hv' hn =>
        simp only [List.cons.injEq, and_true] at h
        subst h
        rw [if_neg]
        rintro ⟨h1, h2⟩
        exact hn ⟨h2, by rw [← hm.len, h2]; rfl, h1⟩
      | poly h => simp at h

/-- Conversion to a polynomial does not change the simplified form. -/
theorem Scalar.toPoly_asSimplified {a : Scalar R} (ha : a.Canon) :
    a.toPoly.asSimplified = a.asSimplified := by
  cases a with
  | k c =>
    have hc : (kToMono c).Canon := (goodM_const (P := fun _ => True) (D := Set.univ) c).canon
    refine (Poly.asSimplified_single hc).trans ?_
    rw [Mono.asSimplified_eq hc]
    rfl
  | var v =>
    have hv : (v.toMono).Canon := (goodM_var (P := fun _ => True) (D := Set.univ) ha trivial
      trivial 1).canon
    refine (Poly.asSimplified_single hv).trans ?_
    rw [Mono.asSimplified_eq hv]
    simp [Var.toMono, Scalar.asSimplified, Go.pure_eq]
  | mono m => exact Poly.asSimplified_single ha
  | poly p => rfl

/-- Conversion to a monomial does not change the simplified form. -/
theorem Scalar.toMono_asSimplified {a : Scalar R} (ha : a.Canon) {m : Mono R}
    (hm : a.toMono = .ok m) : m.asSimplified = a.asSimplified := by
  cases a with
  | k c =>
    cases hm
    rw [Mono.asSimplified_eq (goodM_const (P := fun _ => True) (D := Set.univ) c).canon]
    rfl
  | var v =>
    cases hm
    have hv : (v.toMono).Canon := (goodM_var (P := fun _ => True) (D := Set.univ) ha trivial
      trivial 1).canon
    rw [Mono.asSimplified_eq hv]
    simp [Var.toMono, Scalar.asSimplified, Go.pure_eq]
  | mono m => cases hm; rfl
  | poly p => cases hm

/-- `x` is well formed and simplifies to `s`. -/
def SimpTo (s x : Scalar R) : Prop := x.Canon ∧ x.asSimplified = .ok s

theorem SimpTo.exists {x : Scalar R} (hx : x.Canon) : ∃ s, SimpTo s x ∧ SimpTo s s := by
  obtain ⟨s, h1, h2⟩ := asSimplified_idempotent hx
  obtain ⟨s', h3, h4⟩ := Scalar.asSimplified_good (good_of_univ hx)
  rw [h1, Except.ok.injEq] at h3
  subst h3
  exact ⟨s, ⟨hx, h1⟩, (good_iff.mp h4).1, h2⟩

theorem stable_simpTo {s : Scalar R} : Stable (SimpTo s) where
  check _ h := (good_of_univ h.1).check
  poly a h := ⟨(good_iff.mp (good_toPoly (good_of_univ h.1))).1, by
    show a.toPoly.asSimplified = _
    rw [Scalar.toPoly_asSimplified h.1, h.2]⟩
  mono a m h hm := ⟨(good_iff.mp (good_toMono (good_of_univ h.1) hm)).1, by
    show m.asSimplified = _
    rw [Scalar.toMono_asSimplified h.1 hm, h.2]⟩
  simp a h := by
    obtain ⟨s', h1, h2⟩ := SimpTo.exists h.1
    have : s' = s := by
      have := h1.2.symm.trans h.2
      rwa [Except.ok.injEq] at this
    subst this
    exact ⟨s', h1.2, h2⟩

/-- The simplified form of each entry. -/
noncomputable def simpOf (x : Scalar R) : Scalar R :=
  open Classical in if h : ∃ s, x.asSimplified = .ok s then h.choose else x

theorem simpTo_simpOf {x : Scalar R} (hx : x.Canon) : SimpTo (simpOf x) x := by
  obtain ⟨s, h, -⟩ := SimpTo.exists hx
  have h' : ∃ s, x.asSimplified = .ok s := ⟨s, h.2⟩
  unfold simpOf
  rw [dif_pos h']
  exact ⟨hx, h'.choose_spec⟩

section
variable {n r c : ℕ}

theorem mapM_toMono_fix {l : List R} : (l.map Scalar.k).mapM Scalar.toK = .ok l := by
  induction l with
  | nil => rfl
  | cons a l ih => rw [List.map_cons, List.mapM_cons, ih]; rfl

theorem mapM_toVar_fix {l : List (Var R)} : (l.map Scalar.var).mapM Scalar.toVar = .ok l := by
  induction l with
  | nil => rfl
  | cons a l ih => rw [List.map_cons, List.mapM_cons, ih]; rfl

theorem concretizeVec_k {l : List R} (hl : l ≠ []) : concretizeVec (l.map Scalar.k) = .ok (.k l) := by
  have h1 : (l.map Scalar.k).any Scalar.isPoly = false := by simp [Scalar.isPoly]
  have h2 : (l.map Scalar.k).any Scalar.isMono = false := by simp [Scalar.isMono]
  have h3 : (l.map Scalar.k).any Scalar.isVar = false := by simp [Scalar.isVar]
  have h4 : (l.map Scalar.k).any Scalar.isK = true := by
    obtain ⟨a, ha⟩ := List.exists_mem_of_ne_nil l hl
    exact List.any_eq_true.mpr ⟨_, List.mem_map_of_mem ha, rfl⟩
  have h5 : (l.map Scalar.k).all Scalar.isVar = false := by
    cases l with
    | nil => exact absurd rfl hl
    | cons a l => simp [Scalar.isVar]
  unfold concretizeVec
  rw [if_neg (by simpa using hl)]
  simp only [h1, h2, h3, h4, h5, Bool.false_eq_true, if_false, Bool.and_false, Bool.or_false, if_true,
    mapM_toMono_fix, Go.ok_bind, Go.pure_eq]

theorem concretizeVec_v {l : List (Var R)} (hl : l ≠ []) :
    concretizeVec (l.map Scalar.var) = .ok (.v l) := by
  have h1 : (l.map (Scalar.var (R := R))).any Scalar.isPoly = false := by simp [Scalar.isPoly]
  have h2 : (l.map (Scalar.var (R := R))).any Scalar.isMono = false := by simp [Scalar.isMono]
  have h3 : (l.map (Scalar.var (R := R))).any Scalar.isK = false := by simp [Scalar.isK]
  have h5 : (l.map (Scalar.var (R := R))).all Scalar.isVar = true := by simp [Scalar.isVar]
  unfold concretizeVec
  rw [if_neg (by simpa using hl)]
  simp only [h1, h2, h3, h5, Bool.false_eq_true, if_false, Bool.false_and, Bool.or_false, if_true,
    mapM_toVar_fix, Go.ok_bind, Go.pure_eq]

/-- The simplified vector is determined by the simplified entries. -/
theorem VArr.asSimplified_eq {s : ℕ → Scalar R} {a : Vec R} (h : VArr n (fun i => SimpTo (s i)) a)
    (hn : 0 < n) : a.asSimplified = concretizeVec ((List.range n).map s) := by
  have hck := h.check hn fun i x hx => (good_of_univ hx.1).check
  have key : ∀ l : List (Scalar R), LArr n (fun i x => x = s i) l → l = (List.range n).map s := by
    intro l hl
    refine List.ext_getElem? fun i => ?_
    by_cases hi : i < n
    · obtain ⟨x, h1, h2⟩ := hl.get hi
      rw [h1, List.getElem?_map, List.getElem?_range hi, h2]
      rfl
    · rw [List.getElem?_eq_none (by rw [hl.1]; omega), List.getElem?_eq_none (by simpa using hi)]
  cases a with
  | k l =>
    have h' : LArr n (fun i x => x = s i) (l.map Scalar.k) := by
      refine LArr.map_iff.mpr ((LArr.map_iff.mp h).mono fun i x _ hx => ?_)
      have := hx.2
      simpa [Scalar.asSimplified, Go.pure_eq] using this
    rw [← key _ h', concretizeVec_k]
    · rfl
    · rintro rfl
      exact absurd h.1 (by simp [Vec.entries]; omega)
  | v l =>
    have h' : LArr n (fun i x => x = s i) (l.map Scalar.var) := by
      refine LArr.map_iff.mpr ((LArr.map_iff.mp h).mono fun i x _ hx => ?_)
      have := hx.2
      simpa [Scalar.asSimplified, Go.pure_eq] using this
    rw [← key _ h', concretizeVec_v]
    · rfl
    · rintro rfl
      exact absurd h.1 (by simp [Vec.entries]; omega)
  | m l =>
    unfold Vec.asSimplified
    simp only [hck, Go.ok_bind]
    obtain ⟨l', h1, h2⟩ := LArr.mapM (Q' := fun i x => x = s i) (f := Mono.asSimplified)
      (LArr.map_iff.mp h) fun i a hi ha => ⟨_, ha.2, rfl⟩
    rw [h1, Go.ok_bind, key _ h2]
  | p l =>
    unfold Vec.asSimplified
    simp only [hck, Go.ok_bind]
    obtain ⟨l', h1, h2⟩ := LArr.mapM (Q' := fun i x => x = s i) (f := Poly.asSimplified)
      (LArr.map_iff.mp h) fun i a hi ha => ⟨_, ha.2, rfl⟩
    rw [h1, Go.ok_bind, key _ h2]

theorem mapM2_toK_fix {g : List (List R)} :
    (g.map (·.map Scalar.k)).mapM (·.mapM Scalar.toK) = .ok g := by
  induction g with
  | nil => rfl
  | cons a l ih => rw [List.map_cons, List.mapM_cons, ih, mapM_toMono_fix]; rfl

theorem mapM2_toVar_fix {g : List (List (Var R))} :
    (g.map (·.map Scalar.var)).mapM (·.mapM Scalar.toVar) = .ok g := by
  induction g with
  | nil => rfl
  | cons a l ih => rw [List.map_cons, List.mapM_cons, ih, mapM_toVar_fix]; rfl

theorem concretizeMat_rect {g : List (List (Scalar R))} {Q : ℕ → ℕ → Scalar R → Prop}
    (h : Arr r c Q g) (hr : 0 < r) :
    concretizeMat g = (do
      let l := g.flatten
      if l.any Scalar.isPoly then return .p (g.map (·.map Scalar.toPoly))
      else if l.any Scalar.isMono || (l.any Scalar.isVar && l.any Scalar.isK) then
        return .m (← g.mapM (·.mapM Scalar.toMono))
      else if l.all Scalar.isVar then return .v (← g.mapM (·.mapM Scalar.toVar))
      else if l.any Scalar.isK then return .k (← g.mapM (·.mapM Scalar.toK))
      else throw .other : Go (Mat R)) := by
  unfold concretizeMat
  cases g with
  | nil => exact absurd h.1 (by simp; omega)
  | cons r0 rest =>
    have hrect : (r0 :: rest).forM (fun row => if row.length ≠ r0.length then throw .other
        else pure () : List (Scalar R) → Go Unit) = .ok () := by
      refine Go.forM_ok _ _ fun row hrow => ?_
      rw [h.rowLen hrow, h.rowLen (List.mem_cons_self ..)]
      simp [Go.pure_eq]
    simp only [] at hrect ⊢
    rw [hrect, Go.ok_bind]

theorem concretizeMat_k {g : List (List R)} {Q : ℕ → ℕ → R → Prop} (h : Arr r c Q g) (hr : 0 < r)
    (hc : 0 < c) : concretizeMat (g.map (·.map Scalar.k)) = .ok (.k g) := by
  have hne : g.flatten ≠ [] := by
    obtain ⟨row, h1, h2⟩ := LArr.get h hr
    obtain ⟨a, h3, -⟩ := h2.get hc
    exact List.ne_nil_of_mem (List.mem_flatten.mpr ⟨row, List.mem_of_getElem? h1, List.mem_of_getElem? h3⟩)
  rw [concretizeMat_rect (Q := fun _ _ _ => True) (Arr.map h fun _ _ _ _ _ _ => trivial) hr]
  have e : (g.map (·.map Scalar.k)).flatten = g.flatten.map Scalar.k := by
    rw [List.map_flatten]
  simp only [e]
  have h1 : (g.flatten.map Scalar.k).any Scalar.isPoly = false := by simp [Scalar.isPoly]
  have h2 : (g.flatten.map Scalar.k).any Scalar.isMono = false := by simp [Scalar.isMono]
  have h3 : (g.flatten.map Scalar.k).any Scalar.isVar = false := by simp [Scalar.isVar]
  have h4 : (g.flatten.map Scalar.k).any Scalar.isK = true := by
    rw [List.any_map, List.any_eq_true]
    obtain ⟨a, ha⟩ := List.exists_mem_of_ne_nil _ hne
    exact ⟨a, ha, rfl⟩
  have h5 : (g.flatten.map Scalar.k).all Scalar.isVar = false := by
    rw [List.all_map, List.all_eq_false]
    obtain ⟨a, ha⟩ := List.exists_mem_of_ne_nil _ hne
    exact ⟨a, ha, by simp [Scalar.isVar]⟩
  simp only [h1, h2, h3, h4, h5, Bool.false_eq_true, if_false, Bool.false_and, Bool.or_false, if_true,
    mapM2_toK_fix, Go.ok_bind, Go.pure_eq]

theorem concretizeMat_v {g : List (List (Var R))} {Q : ℕ → ℕ → Var R → Prop} (h : Arr r c Q g)
    (hr : 0 < r) : concretizeMat (g.map (·.map Scalar.var)) = .ok (.v g) := by
  rw [concretizeMat_rect (Q := fun _ _ _ => True) (Arr.map h fun _ _ _ _ _ _ => trivial) hr]
  have e : (g.map (·.map (Scalar.var (R := R)))).flatten = g.flatten.map Scalar.var := by
    rw [List.map_flatten]
  simp only [e]
  have h1 : (g.flatten.map (Scalar.var (R := R))).any Scalar.isPoly = false := by simp [Scalar.isPoly]
  have h2 : (g.flatten.map (Scalar.var (R := R))).any Scalar.isMono = false := by simp [Scalar.isMono]
  have h3 : (g.flatten.map (Scalar.var (R := R))).any Scalar.isK = false := by simp [Scalar.isK]
  have h5 : (g.flatten.map (Scalar.var (R := R))).all Scalar.isVar = true := by simp [Scalar.isVar]
  simp only [h1, h2, h3, h5, Bool.false_eq_true, if_false, Bool.and_false, Bool.or_false, if_true,
    mapM2_toVar_fix, Go.ok_bind, Go.pure_eq]

/-- The simplified matrix is determined by the simplified entries. -/
theorem MArr.asSimplified_eq {s : ℕ → ℕ → Scalar R} {a : Mat R}
    (h : MArr r c (fun i j => SimpTo (s i j)) a) (hr : 0 < r) (hc : 0 < c) :
    a.asSimplified = concretizeMat ((List.range r).map fun i => (List.range c).map (s i)) := by
  have hck := h.check hr fun i j x hx => (good_of_univ hx.1).check
  have key : ∀ g : List (List (Scalar R)), Arr r c (fun i j x => x = s i j) g →
      g = (List.range r).map fun i => (List.range c).map (s i) := by
    intro g hg
    refine Arr.of_eq hg ?_
    refine (LArr.range r).map fun i a _ hi => ?_
    refine (LArr.range c).map fun j b _ hj => ?_
    subst hi hj
    exact fun b hb => hb
  cases a with
  | k l =>
    have h' : Arr r c (fun i j x => x = s i j) (l.map (·.map Scalar.k)) := by
      refine Arr.map_iff.mpr ((Arr.map_iff.mp h).mono fun i j x _ _ hx => ?_)
      have := hx.2
      simpa [Scalar.asSimplified, Go.pure_eq] using this
    rw [← key _ h', concretizeMat_k (Arr.map_iff.mp h) hr hc]
    rfl
  | v l =>
    have h' : Arr r c (fun i j x => x = s i j) (l.map (·.map Scalar.var)) := by
      refine Arr.map_iff.mpr ((Arr.map_iff.mp h).mono fun i j x _ _ hx => ?_)
      have := hx.2
      simpa [Scalar.asSimplified, Go.pure_eq] using this
    rw [← key _ h', concretizeMat_v (Arr.map_iff.mp h) hr]
    rfl
  | m l =>
    unfold Mat.asSimplified
    simp only [hck, Go.ok_bind]
    obtain ⟨l', h1, h2⟩ := Arr.mapM (Q' := fun i j x => x = s i j) (f := Mono.asSimplified)
      (Arr.map_iff.mp h) fun i j a hi hj ha => ⟨_, ha.2, rfl⟩
    rw [h1, Go.ok_bind, key _ h2]
  | p l =>
    unfold Mat.asSimplified
    simp only [hck, Go.ok_bind]
    obtain ⟨l', h1, h2⟩ := Arr.mapM (Q' := fun i j x => x = s i j) (f := Poly.asSimplified)
      (Arr.map_iff.mp h) fun i j a hi hj ha => ⟨_, ha.2, rfl⟩
    rw [h1, Go.ok_bind, key _ h2]

/-- Simplification of arrays is idempotent. -/
theorem Expr.asSimplified_fixed {e e' : Expr R} (hc : e.Canon) (hs : e.Shape r c) (hr : 0 < r)
    (hc0 : 0 < c) (h : e.asSimplified = .ok e') : e'.asSimplified = .ok e' := by
  have hE : ∃ s : ℕ → ℕ → Scalar R, EArr r c (fun i j => SimpTo (s i j)) e := by
    refine ⟨fun i j => simpOf ((e.entry i j).getD (.k 0)), ?_⟩
    refine (EArr.self hs).mono fun i j a hi hj ha => ?_
    beta_reduce
    rw [ha]
    unfold Expr.entry at ha
    cases h1 : e.grid[i]? with
    | none => rw [h1] at ha; simp at ha
    | some row =>
      rw [h1] at ha
      exact simpTo_simpOf (hc row (List.mem_of_getElem? h1) a (List.mem_of_getElem? ha))
  obtain ⟨s, hE⟩ := hE
  have hE' := hE.asSimplified hr fun i j _ _ => stable_simpTo
  obtain ⟨e'', h1, h2, h3, h4, h5⟩ := hE'
  rw [h, Except.ok.injEq] at h1
  subst h1
  cases e with
  | s a =>
    obtain ⟨a', rfl⟩ := h3 ⟨a, rfl⟩
    have ha : a.Canon := hc [a] (by simp [Expr.grid]) a (by simp)
    obtain ⟨t, h6, h7⟩ := asSimplified_idempotent ha
    simp only [Expr.asSimplified, h6, Go.ok_bind, Go.pure_eq, Except.ok.injEq, Expr.s.injEq] at h
    subst h
    simp [Expr.asSimplified, h7, Go.ok_bind, Go.pure_eq]
  | v a =>
    obtain ⟨a', rfl⟩ := h4 ⟨a, rfl⟩
    obtain rfl := earr_v_cols hr hE
    have e1 := VArr.asSimplified_eq (s := fun i => s i 0) (earr_v_iff.mp hE) hr
    have e2 := VArr.asSimplified_eq (s := fun i => s i 0) (earr_v_iff.mp h2) hr
    simp only [Expr.asSimplified] at h ⊢
    rw [e2, ← e1]
    exact h
  | m a =>
    obtain ⟨a', rfl⟩ := h5 ⟨a, rfl⟩
    have e1 := MArr.asSimplified_eq hE hr hc0
    have e2 := MArr.asSimplified_eq h2 hr hc0
    simp only [Expr.asSimplified] at h ⊢
    rw [e2, ← e1]
    exact h

end

end Verif
