import Verif.Lemmas.Closed
import Verif.WitnessArray

/-!
# C49: results of operations are simplified
-/

set_option linter.unusedSectionVars false

namespace Verif

variable {R : Type} [Field R] [LinearOrder R] {r c s n : ℕ}

/-- Simplifying an array a second time changes nothing. -/
theorem array_asSimplified_idempotent {e : Expr R} (hc : e.Canon) (hs : e.Shape r c) (hr : 0 < r)
    (hc0 : 0 < c) : ∃ e', e.asSimplified = .ok e' ∧ e'.asSimplified = .ok e' := by
  have hE : EArr r c (fun _ _ => Good (fun _ => True) Set.univ) e :=
    (EArr.self hs).mono fun i j x _ _ hx => by
      unfold Expr.entry at hx
      cases h1 : e.grid[i]? with
      | none => rw [h1] at hx; simp at hx
      | some row =>
        rw [h1] at hx
        exact good_of_univ (hc row (List.mem_of_getElem? h1) x (List.mem_of_getElem? hx))
  obtain ⟨e', h1, -⟩ := hE.asSimplified hr fun _ _ _ _ => stable_good
  exact ⟨e', h1, Expr.asSimplified_fixed hc hs hr hc0 h1⟩

/-! ## Plus -/

theorem kmPlus_fix {rows : List (List R)} {e : Expr R} (hs : (Expr.m (.k rows)).Shape r c) (hr : 0 < r)
    (hc : 0 < c) (he : e.Canon) : Go.Post (kmPlus rows e) Expr.Fix := by
  cases e with
  | s b =>
    cases b with
    | k d =>
      exact Go.post_bind' fun _ _ => Go.post_bind' fun _ _ => Go.post_bind' fun _ _ =>
        Go.post_bind' fun _ _ => Go.post_bind' fun _ _ => Go.post_bind' fun _ _ => Go.post_pure rfl
    | var v =>
      refine Go.post_bind' fun _ _ => Go.post_bind' fun d _ => Go.post_bind' fun _ _ =>
        Go.post_bind' fun _ _ => ?_
      have hv : (Expr.m (.v (List.replicate d.1 (List.replicate d.2 v)))).Canon := by
        intro row hrow x hx
        obtain ⟨l, hl, rfl⟩ := List.mem_map.mp hrow
        obtain ⟨y, hy, rfl⟩ := List.mem_map.mp hx
        rw [List.eq_of_mem_replicate hl] at hy
        rw [List.eq_of_mem_replicate hy]
        exact simple_s he
      have hk : (Expr.m (.k rows)).Canon := by
        intro row hrow x hx
        obtain ⟨l, -, rfl⟩ := List.mem_map.mp hrow
        obtain ⟨y, -, rfl⟩ := List.mem_map.mp hx
        trivial
      refine (matPlusTemplate_nice hk hv hs hr hc).bind fun m hm => (simp_m_fix hm).bind fun m' hm' =>
        Go.post_bind' fun m'' h'' => Go.post_pure ?_
      have := hm'
      simp only [Expr.Fix, Expr.asSimplified, h'', Go.ok_bind, Go.pure_eq, Except.ok.injEq,
        Expr.m.injEq] at this
      exact this ▸ hm'
    | _ =>
      exact Go.post_bind' fun _ _ => Go.post_bind' fun _ _ => Go.post_bind' fun _ _ =>
        Go.post_bind' fun _ _ => Go.post_throw
  | v b =>
    exact Go.post_bind' fun _ _ => Go.post_bind' fun _ _ => Go.post_bind' fun _ _ =>
      Go.post_bind' fun _ _ => Go.post_throw
  | m b => exact kmPlus_mat_fix he hs hr hc

theorem vmPlusK_fix {rows : List (List (Var R))} {ks : List (List R)}
    (ha : (Expr.m (.v rows)).Canon) (hs : (Expr.m (.v rows)).Shape r c) (hr : 0 < r) (hc : 0 < c) :
    Go.Post (vmPlusK rows ks) Expr.Fix := by
  obtain ⟨hl, hw⟩ := rows_len (f := Scalar.var) rfl hs
  refine Go.Post.bind (P := Arr r c (fun _ _ p => (Scalar.poly p).Reduced)) ?_ fun g hg => Go.post_pure ?_
  · refine post_mapZip (f := fun xj i => do
      let c ← goGet2 ks i xj.2
      match ← xj.1.plus (.k c) with
      | .poly p => pure p
      | _ => throw .typeAssert) hl hw fun row hrow x hx i j => Go.post_bind' fun d _ => ?_
    have hv : (Scalar.var x).Canon := ha _ (List.mem_map_of_mem hrow) _ (List.mem_map_of_mem hx)
    refine (Scalar.plus_reduced (a := .var x) (b := .k d) hv trivial).bind fun y hy => ?_
    cases y with
    | poly p => exact Go.post_pure hy
    | _ => exact Go.post_throw
  · have hE := (Arr.map_iff (f := Scalar.poly) (Q' := fun _ _ => Scalar.Reduced)).mpr hg
    have key := concretizeMat_fix hr hc hE
    have hm := concretizeMat_p hg hr hc
    exact key _ hm

theorem vmPlus_fix {rows : List (List (Var R))} {e : Expr R} (ha : (Expr.m (.v rows)).Canon)
    (hs : (Expr.m (.v rows)).Shape r c) (hr : 0 < r) (hc : 0 < c) :
    Go.Post (vmPlus rows e) Expr.Fix := by
  refine Go.post_bind' fun _ _ => Go.post_bind' fun _ _ => Go.post_bind' fun _ _ =>
    Go.post_bind' fun _ _ => Go.post_bind' fun _ _ => ?_
  rcases e with (_ | _ | _ | _) | (_ | _ | _ | _) | (_ | _ | _ | _)
  case s.k d => exact Go.post_bind' fun _ _ => vmPlusK_fix ha hs hr hc
  case m.k ks => exact vmPlusK_fix ha hs hr hc
  all_goals exact Go.post_throw

theorem pmPlus_fix {rows : List (List (Poly R))} {e : Expr R} (ha : (Expr.m (.p rows)).Canon)
    (hs : (Expr.m (.p rows)).Shape r c) (hr : 0 < r) (hc : 0 < c) (he : e.Canon) :
    Go.Post (pmPlus rows e) Expr.Fix := by
  obtain ⟨hl, hw⟩ := rows_len (f := Scalar.poly) rfl hs
  have hA : Arr r c (fun _ _ x => ∃ row ∈ rows, x ∈ row) rows := grid_arr (f := Scalar.poly) hl
    (fun row hrow => by obtain ⟨l, h1, rfl⟩ := List.mem_map.mp hrow; simpa using hw l h1)
  have hp : ∀ row ∈ rows, ∀ p ∈ row, (Scalar.poly p).Canon := fun row h1 p h2 =>
    ha _ (List.mem_map_of_mem h1) _ (List.mem_map_of_mem h2)
  have hadd : ∀ b : Scalar R, b.Canon →
      Go.Post (rows.mapM (·.mapM (fun p => p.plus b))) (Arr r c (fun _ _ => Scalar.Canon)) := fun b hb =>
    post_mapM2 hA fun p ⟨row, h1, h2⟩ => Scalar.plus_canon (a := .poly p) (hp row h1 p h2) hb
  refine Go.post_bind' fun _ _ => Go.post_bind' fun _ _ => Go.post_bind' fun _ _ =>
    Go.post_bind' fun _ _ => Go.post_bind' fun _ _ => ?_
  rcases e with (d | v | q | q) | (_ | _ | _ | _) | (ks | _ | _ | ps)
  case s.k => exact (hadd (.k d) trivial).bind fun g hg => nice_bind (concretizeM_nice hr hc hg)
  case s.mono =>
    have hq : (Scalar.poly q.toPoly).Canon := (good_iff.mp (good_toPoly (good_of_univ (simple_s he)))).1
    exact (hadd _ hq).bind fun g hg => (concretizeM_nice hr hc hg).bind fun e' h' =>
      h'.fix.bind fun _ h => h.fix
  case s.poly => exact (hadd _ (simple_s he)).bind fun g hg => nice_bind (concretizeM_nice hr hc hg)
  case m.k =>
    refine (post_mapZip (Q := Scalar.Canon) (f := fun pj i => do
      let c ← Mat.at (.k ks) i pj.2
      pj.1.plus c) hl hw fun row h1 p h2 i j => ?_).bind fun g hg => nice_bind (concretizeM_nice hr hc hg)
    exact (Mat.at_canon he).bind fun y hy => Scalar.plus_canon (a := .poly p) (hp row h1 p h2) hy
  case m.p =>
    refine (post_mapZip (Q := Scalar.Canon) (f := fun pj i => do
      let q ← goGet2 ps i pj.2
      pj.1.plus (.poly q)) hl hw fun row h1 p h2 i j => ?_).bind fun g hg =>
        nice_bind (concretizeM_nice hr hc hg)
    exact goGet2_mem.bind fun q ⟨row', h3, h4⟩ => Scalar.plus_canon (a := .poly p) (b := .poly q)
      (hp row h1 p h2) (he _ (List.mem_map_of_mem h3) _ (List.mem_map_of_mem h4))
  all_goals exact Go.post_throw

theorem polyPlusExpr_fix {p : Poly R} {e : Expr R} (hp : (Scalar.poly p).Canon) (he : e.Canon)
    (hs : e.Shape r c) (hr : 0 < r) (hc : 0 < c) : Go.Post (p.plusExpr e) Expr.Fix := by
  cases e with
  | s b => exact simple_bind (Scalar.plus_reduced (a := .poly p) hp (simple_s he))
  | v b =>
    have hadd : ∀ i : ℤ, Go.Post (do p.plus (← b.atVec i)) Scalar.Reduced := fun i =>
      Vec.atVec_mem.bind fun y hy => Scalar.plus_reduced (a := .poly p) hp (vec_canon he y hy)
    refine Go.post_bind' fun _ _ => Go.post_bind' fun _ _ => Go.post_bind' fun n _ => ?_
    dsimp only
    split
    · exact Vec.atVec_mem.bind fun y hy =>
        (Scalar.plus_reduced (a := .poly p) hp (vec_canon he y hy)).bind fun z hz =>
          (Scalar.fix_expr hz.2).fix
    · exact (Go.post_mapM (Q := Scalar.Reduced) fun (i : ℕ) _ => hadd i).bind fun l hl =>
        fix_bind (concretizeV_fix hl.2)
  | m b =>
    have hM := mat_good he hs
    have hd : b.dims = .ok (r, c) := (earr_m_iff.mpr hM).dims hr fun _ _ _ h => h.check
    have hadd : ∀ i j : ℤ, Go.Post (do p.plus (← b.at i j)) Scalar.Reduced := fun i j =>
      (Mat.at_canon he).bind fun y hy => Scalar.plus_reduced (a := .poly p) hp hy
    unfold Poly.plusExpr
    refine Go.post_bind' fun _ _ => Go.post_bind' fun _ _ => ?_
    rw [hd, Go.ok_bind]
    dsimp only
    split
    · exact (Mat.at_canon he).bind fun y hy =>
        (Scalar.plus_reduced (a := .poly p) hp hy).bind fun z hz => (Scalar.fix_expr hz.2).fix
    · exact (post_mapRange (Q := Scalar.Reduced) fun i j => hadd i j).bind fun g hg =>
        fix_bind (concretizeM_fix hr hc hg)

/-- `Plus` returns a simplified expression for all receivers but `MonomialMatrix`, which
`K.Plus` uses too. -/
theorem plus_simplified_partial {a e : Expr R} (ha : a.Canon) (hsa : a.Shape r c) (hr : 0 < r) (hc : 0 < c)
    (he : e.Canon) (hse : e.Shape s n) (hs : 0 < s) (hn : 0 < n)
    (h1 : ∀ rows, a ≠ .m (.m rows)) (h2 : ∀ d rows, a = .s (.k d) → e ≠ .m (.m rows))
    {out : Expr R} (h : a.plus e = .ok out) : out.asSimplified = .ok out := by
  revert h
  show _ → out.Fix
  refine (show Go.Post (a.plus e) Expr.Fix from ?_) out
  have hk : ∀ d : R, (Expr.s (.k d)).Canon := fun d row hrow x hx => by
    simp only [Expr.grid, List.mem_singleton] at hrow
    subst hrow
    rw [List.mem_singleton] at hx
    exact hx ▸ trivial
  cases a with
  | s a =>
    have ha' := simple_s ha
    cases e with
    | s b =>
      have : Go.Post (Expr.plus (.s a) (.s b)) Expr.Fix :=
        simple_bind (Scalar.plus_reduced ha' (simple_s he))
      exact this
    | v b =>
      cases a with
      | k d => exact Go.post_bind' fun _ _ => Vec.plus_fix he ha
      | var x => exact Go.post_bind' fun _ _ => fix_bind (Vec.plus_fix he ha)
      | mono x =>
        exact Go.post_bind' fun _ _ => Go.post_bind' fun _ _ => Go.post_bind' fun _ _ =>
          Go.post_bind' fun _ _ => Go.post_throw
      | poly p => exact polyPlusExpr_fix ha' he hse hs hn
    | m b =>
      cases a with
      | k d =>
        refine Go.post_bind' fun _ _ => ?_
        cases b with
        | k rows => exact kmPlus_fix hse hs hn ha
        | v rows => exact vmPlus_fix he hse hs hn
        | m rows => exact absurd rfl (h2 d rows rfl)
        | p rows => exact pmPlus_fix he hse hs hn ha
      | var x => exact Go.post_bind' fun _ _ => Go.post_throw
      | mono x =>
        exact Go.post_bind' fun _ _ => Go.post_bind' fun _ _ => Go.post_bind' fun _ _ =>
          Go.post_bind' fun _ _ => Go.post_throw
      | poly p => exact polyPlusExpr_fix ha' he hse hs hn
  | v a => exact Vec.plus_fix ha he
  | m a =>
    cases a with
    | k rows => exact kmPlus_fix hsa hr hc he
    | v rows => exact vmPlus_fix ha hsa hr hc
    | m rows => exact absurd rfl (h1 rows)
    | p rows => exact pmPlus_fix ha hsa hr hc he

/-! ## Multiply -/

theorem kmMul_fix {rows : List (List R)} {e : Expr R} (hsa : (Expr.m (.k rows)).Shape r n) (hr : 0 < r)
    (hn : 0 < n) (he : e.Canon) (hse : e.Shape s c) (hs : 0 < s) (hc : 0 < c) :
    Go.Post (kmMul rows e) Expr.Fix := by
  have hd : rowDims rows = .ok (r, n) :=
    (mat_good kmat_canon hsa).dims hr fun _ _ _ h => h.check
  unfold kmMul
  refine Go.post_bind' fun _ _ => ?_
  rw [hd, Go.ok_bind]
  refine Go.post_bind' fun _ _ => Go.post_bind' fun _ _ => ?_
  rcases e with (d | v | q | q) | (l | l | l | l) | b
  case s.k => exact Go.post_bind' fun _ _ => Go.post_pure rfl
  case s.poly =>
    refine (post_mapRange (Q := Scalar.Canon) fun i j => Go.post_bind' fun x _ => ?_).bind
      fun g hg => nice_bind (concretizeM_nice hr hn hg)
    have hx : (Scalar.poly (kToPoly x)).Canon :=
      (good_iff.mp (good_toPoly (a := .k x) (good_of_univ (s := .k x) trivial))).1
    exact Scalar.mul_canon (a := .poly (kToPoly x)) (b := .poly q) hx (simple_s he)
  case v.v =>
    have hl := vec_canon he
    dsimp only
    split
    · refine Go.Post.bind (P := Scalar.Canon) ?_ fun out h =>
        (Scalar.simp_reduced h).bind fun _ h => Go.post_pure (Scalar.fix_expr h.2)
      refine Go.post_foldlM (I := Scalar.Canon) trivial fun vi hvi acc hacc => Go.post_bind' fun x _ => ?_
      refine (Scalar.mul_canon (a := .var vi.1) (b := .k x) ?_ trivial).bind fun y hy =>
        Scalar.plus_canon hacc hy
      exact hl _ (List.mem_map_of_mem (List.fst_mem_of_mem_zipIdx hvi))
    · refine Go.Post.bind (P := Expr.Flat) ?_ fun _ h => h.1.fix
      refine Go.post_foldlM (I := Expr.Flat) ?_ fun j _ acc hacc => ?_
      · exact kvec_flat (by intro h; rw [List.replicate_eq_nil_iff] at h; omega)
      · refine Go.post_bind' fun _ _ => Go.post_bind' fun col _ => goGet_mem.bind fun v hv => ?_
        exact (mulVecDense_flat (hl _ (List.mem_map_of_mem hv))).bind fun y hy => plus_flat hacc hy
  case m =>
    exact nice_bind (matMulTemplate_nice kmat_canon he hsa hr hse hs hc)
  all_goals exact Go.post_throw

theorem vmMul_fix {rows : List (List (Var R))} {e : Expr R} (ha : (Expr.m (.v rows)).Canon)
    (hsa : (Expr.m (.v rows)).Shape r n) (hr : 0 < r)
    (hn : 0 < n) (he : e.Canon) (hse : e.Shape s c) (hs : 0 < s) (hc : 0 < c) :
    Go.Post (vmMul rows e) Expr.Fix := by
  rcases e with (d | v | q | q) | (l | l | l | l) | b
  case s.k => exact vmMul_k_fix ha hsa hr hn
  case v.k => exact vmMul_kvec_fix ha
  case v.v =>
    have hl := vec_canon he
    refine Go.post_bind' fun _ _ => Go.post_bind' fun _ _ => Go.post_bind' fun _ _ =>
      Go.post_bind' fun _ _ => Go.post_bind' fun _ _ => ?_
    refine Go.Post.bind (P := Expr.Flat) ?_ fun _ h => h.1.fix
    refine Go.post_foldlM (I := Expr.Flat) (flat_s trivial) fun j _ acc hacc => ?_
    refine (Go.post_mapM (Q := fun x => (Scalar.var x).Canon) fun row hrow => ?_).bind fun col hcol =>
      goGet_mem.bind fun v hv => ?_
    · exact goGet_mem.mono fun x hx => ha _ (List.mem_map_of_mem hrow) _ (List.mem_map_of_mem hx)
    · refine Go.Post.bind (P := Expr.Flat) ?_ fun y hy => plus_flat hacc hy
      refine vecMulScalar_flat (a := .v col) (b := .var v) (vec_canon_iff.mpr fun x hx => ?_)
        (hl _ (List.mem_map_of_mem hv))
      obtain ⟨y, hy, rfl⟩ := List.mem_map.mp hx
      exact hcol.2 y hy
  case m => exact vmMul_mat_fix ha he hsa hr hse hs hc
  all_goals
    exact Go.post_bind' fun _ _ => Go.post_bind' fun _ _ => Go.post_bind' fun _ _ =>
      Go.post_bind' fun _ _ => Go.post_bind' fun _ _ => Go.post_throw

theorem mulEntry_reduced {a b : Mat R} (ha : (Expr.m a).Canon) (hb : (Expr.m b).Canon) {n i j : ℕ} :
    Go.Post (mulEntry a b n i j) Scalar.Reduced := by
  refine Go.Post.bind (P := Scalar.Canon) ?_ fun _ h => Scalar.simp_reduced h
  refine Go.post_foldlM (I := Scalar.Canon) trivial fun k _ acc hacc => ?_
  exact (Mat.at_canon ha).bind fun x hx => (Mat.at_canon hb).bind fun y hy =>
    (Scalar.mul_canon hx hy).bind fun z hz => Scalar.plus_canon hacc hz

theorem matMulTemplate_fix {a b : Mat R} (ha : (Expr.m a).Canon) (hb : (Expr.m b).Canon)
    (hsa : (Expr.m a).Shape r n) (hr : 0 < r) (hsb : (Expr.m b).Shape s c) (hs0 : 0 < s)
    (hc : 0 < c) : Go.Post (matMulTemplate a b) Expr.Fix := by
  have hA := mat_good ha hsa
  have hB := mat_good hb hsb
  unfold matMulTemplate
  rw [hA.check hr (fun _ _ _ h => h.check), hA.dims hr (fun _ _ _ h => h.check), Go.ok_bind,
    hB.check hs0 (fun _ _ _ h => h.check), hB.dims hs0 (fun _ _ _ h => h.check), Go.ok_bind,
    Go.ok_bind, Go.ok_bind]
  dsimp only
  split
  · exact fun _ h => by cases h
  · exact Go.Post.bind (post_mapRange (Q := Scalar.Reduced) fun i j => mulEntry_reduced ha hb)
      fun g hg => concretizeM_fix hr hc hg

theorem mmMul_fix {rows : List (List (Mono R))} {e : Expr R} (ha : (Expr.m (.m rows)).Canon)
    (hsa : (Expr.m (.m rows)).Shape r n) (hr : 0 < r)
    (he : e.Canon) (hse : e.Shape s c) (hs : 0 < s) (hc : 0 < c) (hk : ∀ d, e ≠ .s (.k d)) :
    Go.Post (mmMul rows e) Expr.Fix := by
  refine Go.post_bind' fun _ _ => Go.post_bind' fun _ _ => Go.post_bind' fun _ _ =>
    Go.post_bind' fun _ _ => Go.post_bind' fun _ _ => ?_
  have hm : ∀ row ∈ rows, ∀ q ∈ row, (Scalar.mono q).Canon := fun row h1 q h2 =>
    ha _ (List.mem_map_of_mem h1) _ (List.mem_map_of_mem h2)
  rcases e with (d | v | q | q) | (l | l | l | l) | b
  case s.k => exact absurd rfl (hk d)
  case v.v =>
    have hl := vec_canon he
    have hv : ∀ v ∈ l, (Scalar.var v).Canon := fun v h => hl _ (List.mem_map_of_mem h)
    dsimp only
    split
    · refine goGet_mem.bind fun row hrow => ?_
      refine Go.Post.bind (P := Scalar.Canon) ?_ fun out h =>
        (Scalar.simp_reduced h).bind fun _ h => Go.post_pure (Scalar.fix_expr h.2)
      refine Go.post_foldlM (I := Scalar.Canon) trivial fun mi hmi acc hacc =>
        goGet_mem.bind fun x hx => ?_
      exact (Scalar.mul_canon (a := .mono mi.1) (b := .var x)
        (hm row hrow _ (List.fst_mem_of_mem_zipIdx hmi)) (hv x hx)).bind fun y hy =>
        Scalar.plus_canon hacc hy
    · refine (Go.post_mapM (Q := Scalar.Reduced) fun row hrow => ?_).bind fun l' hl' =>
        (concretizeVec_fix hl'.2).bind fun _ h => Go.post_pure h
      have ht : ∀ q ∈ row, ∀ v ∈ l, Go.Post (q.toPoly.mul (.var v)) Scalar.Reduced := fun q h1 v h2 => by
        have hq : (Scalar.poly q.toPoly).Canon :=
          (good_iff.mp (good_toPoly (good_of_univ (hm row hrow q h1)))).1
        exact fun x h => ⟨Scalar.mul_canon (a := .poly q.toPoly) (b := .var v) hq (hv v h2) x h,
          Scalar.mul_fix (a := .poly q.toPoly) (b := .var v) hq (hv v h2) (by simp [Scalar.isMono]) x h⟩
      refine goGet_mem.bind fun m0 h0 => goGet_mem.bind fun v0 hv0 => (ht m0 h0 v0 hv0).bind fun i hi => ?_
      refine Go.post_foldlM (I := Scalar.Reduced) hi fun mj hmj acc hacc => goGet_mem.bind fun v h2 =>
        (ht mj.1 (List.fst_mem_of_mem_zipIdx (List.mem_of_mem_drop hmj)) v h2).bind fun t ht' =>
          (Scalar.plus_reduced hacc.1 ht'.1).bind fun x hx => ?_
      cases x with
      | poly p => exact Go.post_pure hx
      | _ => exact Go.post_throw
  case m => exact matMulTemplate_fix ha he hsa hr hse hs hc
  all_goals exact Go.post_throw

theorem pmMul_fix {rows : List (List (Poly R))} {e : Expr R} (ha : (Expr.m (.p rows)).Canon)
    (hsa : (Expr.m (.p rows)).Shape r n) (hr : 0 < r) (hn : 0 < n)
    (he : e.Canon) (hse : e.Shape s c) (hs : 0 < s) (hc : 0 < c) :
    Go.Post (pmMul rows e) Expr.Fix := by
  rcases e with (d | v | q | q) | (l | l | l | l) | b
  case s.k => exact pmMul_k_fix ha hsa hr hn
  all_goals
    refine Go.post_bind' fun _ _ => Go.post_bind' fun _ _ => Go.post_bind' fun _ _ =>
      Go.post_bind' fun _ _ => Go.post_bind' fun _ _ => ?_
  case v.v =>
    have hl := vec_canon he
    refine (Go.post_mapM (Q := Scalar.Reduced) fun row hrow => ?_).bind fun sums hsums => ?_
    · refine Go.post_foldlM (I := Scalar.Reduced) ⟨trivial, rfl⟩ fun pj hpj acc hacc =>
        goGet_mem.bind fun v h2 => ?_
      exact (Scalar.mul_canon (a := .poly pj.1) (b := .var v)
        (ha _ (List.mem_map_of_mem hrow) _ (List.mem_map_of_mem (List.fst_mem_of_mem_zipIdx hpj)))
        (hl _ (List.mem_map_of_mem h2))).bind fun y hy => Scalar.plus_reduced hacc.1 hy
    · split
      · exact goGet_mem.bind fun out h => (Scalar.simp_reduced (hsums.2 _ h).1).bind fun _ h =>
          Go.post_pure (Scalar.fix_expr h.2)
      · exact concretizeV_fix hsums.2
  case m => exact matMulTemplate_fix ha he hsa hr hse hs hc
  all_goals exact Go.post_throw

/-- `Multiply` returns a simplified expression for all operands but these: a `Monomial` times or by a
constant, a `Monomial` times a variable or monomial, and a `MonomialMatrix` times a constant. -/
theorem mul_simplified_partial {a e : Expr R} (ha : a.Canon) (hsa : a.Shape r c) (hr : 0 < r)
    (hc : 0 < c) (he : e.Canon) (hse : e.Shape s n) (hs : 0 < s) (hn : 0 < n)
    (h1 : ∀ x y, a = .s (.mono x) → e = .s y → y.isPoly = true)
    (h2 : ∀ x y, a = .s x → e = .s (.mono y) → x.isK = false)
    (h3 : ∀ rows d, a = .m (.m rows) → e ≠ .s (.k d))
    {out : Expr R} (h : a.mul e = .ok out) : out.asSimplified = .ok out := by
  revert h
  show _ → out.Fix
  refine (show Go.Post (a.mul e) Expr.Fix from ?_) out
  cases a with
  | s a =>
    have ha' := simple_s ha
    cases e with
    | s b =>
      have : Go.Post (Expr.mul (.s a) (.s b)) Expr.Fix :=
        simple_bind (fun x h => ⟨Scalar.mul_canon ha' (simple_s he) x h, Scalar.mul_fix ha' (simple_s he)
          ⟨fun h => ?_, fun h => ?_⟩ x h⟩)
      · exact this
      · cases a with
        | mono x => exact h1 x b rfl rfl
        | _ => cases h
      · cases b with
        | mono y => exact h2 a y rfl rfl
        | _ => cases h
    | v b =>
      cases a with
      | k d => exact Go.post_bind' fun _ _ => Go.post_throw
      | var x => exact Var.mulVec_fix ha' he
      | mono x =>
        exact Go.post_bind' fun _ _ => Go.post_bind' fun _ _ => Go.post_bind' fun _ _ =>
          Go.post_bind' fun _ _ => Go.post_throw
      | poly p => exact Go.post_bind' fun _ _ => Go.post_bind' fun _ _ => fix_bind (Vec.mul_fix he ha)
    | m b =>
      cases a with
      | k d => exact Go.post_bind' fun _ _ => Go.post_throw
      | var x =>
        exact Go.post_bind' fun _ _ => Go.post_bind' fun _ _ => Go.post_bind' fun _ _ =>
          Go.post_bind' fun _ _ => Go.post_throw
      | mono x =>
        exact Go.post_bind' fun _ _ => Go.post_bind' fun _ _ => Go.post_bind' fun _ _ =>
          Go.post_bind' fun _ _ => Go.post_throw
      | poly p =>
        exact Go.post_bind' fun _ _ => Go.post_bind' fun _ _ =>
          nice_bind (matMul_nice ⟨he, s, n, hs, hn, hse⟩ ⟨ha, r, c, hr, hc, hsa⟩)
  | v a => exact Vec.mul_fix ha he
  | m a =>
    cases a with
    | k rows => exact kmMul_fix hsa hr hc he hse hs hn
    | v rows => exact vmMul_fix ha hsa hr hc he hse hs hn
    | m rows => exact mmMul_fix ha hsa hr he hse hs hn fun d => h3 rows d rfl
    | p rows => exact pmMul_fix ha hsa hr hc he hse hs hn

theorem mulF64_mat {e : Expr R} {d : R} {m : Mat R} (he : e.Nice) (h : e.mulF64 d = .ok (.m m)) :
    ∃ m, e = .m m := by
  have hk : (Scalar.k d).Canon := trivial
  have hfl : ∀ {x : Go (Expr R)}, Go.Post x Expr.Flat →
      Go.Post (x >>= Expr.asSimplified) Expr.Flat := fun h => h.bind fun _ h => h.simp
  have hsc : ∀ {x : Go (Scalar R)}, Go.Post x Scalar.Canon →
      Go.Post (x >>= fun s => pure (Expr.s s)) Expr.Flat := fun h => h.bind fun _ h => Go.post_pure (flat_s h)
  rcases e with (x | v | q | q) | (l | l | l | l) | g
  case m => exact ⟨g, rfl⟩
  case s.k => cases h
  case s.mono => exact absurd rfl ((hsc (Scalar.mul_canon (a := .mono q) (simple_s he.1) hk) _ h).2 m)
  case v.v => exact absurd rfl ((vecMulScalar_flat he.1 hk _ h).2 m)
  case s.var =>
    exact absurd rfl ((hfl (hsc (Scalar.mul_canon (a := .var v) (simple_s he.1) hk)) _ h).2 m)
  case s.poly =>
    exact absurd rfl ((hfl (hsc (Scalar.mul_canon (a := .poly q) (simple_s he.1) hk)) _ h).2 m)
  all_goals exact absurd rfl ((hfl (vecMulScalar_flat he.1 hk) _ h).2 m)

/-- `Minus` returns a simplified expression for all receivers but `MonomialMatrix`, and `K` when
matrices are subtracted. -/
theorem minus_simplified_partial {a e : Expr R} (ha : a.Canon) (hsa : a.Shape r c) (hr : 0 < r)
    (hc : 0 < c) (he : e.Canon) (hse : e.Shape s n) (hs : 0 < s) (hn : 0 < n)
    (h1 : ∀ rows, a ≠ .m (.m rows)) (h2 : ∀ d m, a = .s (.k d) → e ≠ .m m)
    {out : Expr R} (h : a.minus e = .ok out) : out.asSimplified = .ok out := by
  have hg : Go.Post (a.minusGen e) Expr.Fix := by
    refine Go.Post.bind (P := fun x => x.Nice ∧ ((∃ m, x = .m m) → ∃ m, e = .m m))
      (fun x hx => ⟨mulF64_nice ⟨he, s, n, hs, hn, hse⟩ _ x hx, ?_⟩) fun x hx y hy => ?_
    · rintro ⟨m, rfl⟩
      exact mulF64_mat ⟨he, s, n, hs, hn, hse⟩ hx
    · obtain ⟨⟨hx1, s', n', hs', hn', hx2⟩, hx3⟩ := hx
      exact plus_simplified_partial ha hsa hr hc hx1 hx2 hs' hn' h1 (fun d rows hd hm => by
        obtain ⟨m, hm'⟩ := hx3 ⟨_, hm⟩
        exact h2 d m hd hm') hy
  revert h
  show _ → out.Fix
  refine (show Go.Post (a.minus e) Expr.Fix from ?_) out
  unfold Expr.minus
  split
  · exact Go.post_bind' fun _ _ => hg
  · exact Go.post_bind' fun _ _ => Go.post_bind' fun _ _ => hg
  · refine Go.post_bind' fun _ _ => Go.post_bind' fun _ _ => Go.post_bind' fun _ _ => ?_
    split
    · exact Go.post_throw
    · exact hg
  · exact Go.post_bind' fun _ _ => Go.post_bind' fun _ _ => Go.post_bind' fun _ _ =>
      Go.post_bind' fun _ _ => Go.post_bind' fun _ _ => hg

/-! ## Results that are not simplified -/

/-- `3x` times 0 is returned as the monomial `0x`, which simplifies to 0. -/
theorem mono_mul_simplified_false :
    Expr.mul (.s (.mono (wm1 (3 : ℚ) 0 1))) (.s (.k 0)) = .ok (.s (.mono (wm1 0 0 1))) ∧
    Expr.asSimplified (.s (.mono (wm1 (0 : ℚ) 0 1))) = .ok (.s (.k 0)) := by decide +kernel

/-- `2x` times 0.5 is returned as the monomial `1x`, which simplifies to the variable `x`. -/
theorem mono_mul_var_simplified_false :
    Expr.mul (.s (.mono (wm1 (2 : ℚ) 0 1))) (.s (.k (1 / 2))) = .ok (.s (.mono (wm1 1 0 1))) ∧
    Expr.asSimplified (.s (.mono (wm1 (1 : ℚ) 0 1))) = .ok (.s (.var wx)) := by decide +kernel

/-- A `MonomialMatrix` plus `3x` returns `3x + 3x` as two terms; `Simplify` turns them into `6x`. -/
theorem mmat_plus_simplified_false :
    Expr.plus (.m (.m [[wm1 (3 : ℚ) 0 1, wm1 1 1 1]])) (.s (.mono (wm1 3 0 1))) =
      .ok (.m (.p [[⟨[wm1 3 0 1, wm1 3 0 1]⟩, ⟨[wm1 1 1 1, wm1 3 0 1]⟩]])) ∧
    Expr.asSimplified (.m (.p [[⟨[wm1 (3 : ℚ) 0 1, wm1 3 0 1]⟩, ⟨[wm1 1 1 1, wm1 3 0 1]⟩]])) =
      .ok (.m (.p [[⟨[wm1 6 0 1]⟩, ⟨[wm1 1 1 1, wm1 3 0 1]⟩]])) := by decide +kernel

/-- A `MonomialMatrix` times 0 is returned as a matrix of monomials with coefficient 0. -/
theorem mmat_mul_simplified_false :
    Expr.mul (.m (.m [[wm1 (3 : ℚ) 0 1, wm1 1 1 1]])) (.s (.k 0)) =
      .ok (.m (.m [[wm1 0 0 1, wm1 0 1 1]])) ∧
    Expr.asSimplified (.m (.m [[wm1 (0 : ℚ) 0 1, wm1 0 1 1]])) = .ok (.m (.k [[0, 0]])) := by
  decide +kernel

/-- 0 minus a matrix of variables keeps the term 0 in every entry. -/
theorem k_minus_vmat_simplified_false :
    Expr.minus (.s (.k (0 : ℚ))) (.m (.v [[wx, wy]])) =
      .ok (.m (.p [[⟨[wm1 (-1) 0 1, wm0 0]⟩, ⟨[wm1 (-1) 1 1, wm0 0]⟩]])) ∧
    Expr.asSimplified (.m (.p [[⟨[wm1 (-1 : ℚ) 0 1, wm0 0]⟩, ⟨[wm1 (-1) 1 1, wm0 0]⟩]])) =
      .ok (.m (.m [[wm1 (-1) 0 1, wm1 (-1) 1 1]])) := by decide +kernel

/-! ## The hypotheses can be met -/

example : ∃ e', (Expr.m wMp).asSimplified = .ok e' ∧ e'.asSimplified = .ok e' :=
  array_asSimplified_idempotent (r := 2) (c := 2) (Expr.okDeg_canon 2 (by decide +kernel))
    ⟨rfl, by decide +kernel⟩ (by decide) (by decide)

example {out : Expr ℚ} (h : Expr.plus (.m wMp) (.m wMk) = .ok out) : out.asSimplified = .ok out :=
  plus_simplified_partial (r := 2) (c := 2) (s := 2) (n := 2) (Expr.okDeg_canon 2 (by decide +kernel))
    ⟨rfl, by decide +kernel⟩ (by decide) (by decide) (Expr.okDeg_canon 2 (by decide +kernel))
    ⟨rfl, by decide +kernel⟩ (by decide) (by decide) (fun _ h => by cases h) (fun _ _ h => by cases h) h

example : ∃ out, Expr.plus (.m wMp) (.m wMk) = .ok out := by
  cases h : Expr.plus (.m wMp) (.m wMk) with
  | ok out => exact ⟨out, rfl⟩
  | error x =>
    have : (Expr.plus (.m wMp) (.m wMk)).isOk = true := by decide +kernel
    rw [h] at this
    cases this

example {out : Expr ℚ} (h : Expr.mul (.m wMk) (.v wVv) = .ok out) : out.asSimplified = .ok out :=
  mul_simplified_partial (r := 2) (c := 2) (s := 2) (n := 1) (Expr.okDeg_canon 2 (by decide +kernel))
    ⟨rfl, by decide +kernel⟩ (by decide) (by decide) (Expr.okDeg_canon 2 (by decide +kernel))
    ⟨rfl, by decide +kernel⟩ (by decide) (by decide) (fun _ _ h => by cases h) (fun _ _ h => by cases h)
    (fun _ _ h => by cases h) h

/-- The product of the example, computed. -/
example : (Expr.mul (.m wMk) (.v wVv)).isOk = true := by decide +kernel

example {out : Expr ℚ} (h : Expr.minus (.v wVv) (.v wVv) = .ok out) : out.asSimplified = .ok out :=
  minus_simplified_partial (r := 2) (c := 1) (s := 2) (n := 1) (Expr.okDeg_canon 2 (by decide +kernel))
    ⟨rfl, by decide +kernel⟩ (by decide) (by decide) (Expr.okDeg_canon 2 (by decide +kernel))
    ⟨rfl, by decide +kernel⟩ (by decide) (by decide) (fun _ h => by cases h) (fun _ _ h => by cases h) h

example : Expr.minus (.v wVv) (.v wVv) = .ok (.v (.k [0, 0])) := by decide +kernel

end Verif
