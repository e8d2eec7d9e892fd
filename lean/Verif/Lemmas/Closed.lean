import Verif.Lemmas.FixConc

/-!
# Results of operations are well formed
-/

set_option linter.unusedSectionVars false

namespace Verif

variable {R : Type} [Field R] [LinearOrder R] {S : Type} [GoNum S] {r c s n : ℕ}

theorem fix_bind {x : Go (Expr R)} (h : Go.Post x Expr.Fix) :
    Go.Post (x >>= Expr.asSimplified) Expr.Fix := h.bind fun _ h => h.fix

theorem nice_bind {x : Go (Expr R)} (h : Go.Post x Expr.Nice) :
    Go.Post (x >>= Expr.asSimplified) Expr.Fix := h.bind fun _ h => h.fix

theorem simple_s {a : Scalar S} (h : (Expr.s a).Canon) : a.Canon := h [a] (by simp [Expr.grid]) a (by simp)

theorem simple_bind {x : Go (Scalar R)} (h : Go.Post x Scalar.Reduced) :
    Go.Post (x >>= fun s => pure (Expr.s s)) Expr.Fix :=
  h.bind fun _ h => Go.post_pure (Scalar.fix_expr h.2)

theorem post_mapZip {α β : Type} {f : α × ℕ → ℕ → Go β} {Q : β → Prop} {rows : List (List α)}
    (hl : rows.length = r) (hw : ∀ row ∈ rows, row.length = c)
    (h : ∀ row ∈ rows, ∀ x ∈ row, ∀ i j, Go.Post (f (x, j) i) Q) :
    Go.Post (rows.zipIdx.mapM (fun ri => ri.1.zipIdx.mapM (fun xj => f xj ri.2)))
      (Arr r c (fun _ _ => Q)) := by
  refine (post_mapM_len (Q := LArr c (fun _ => Q)) fun ri hri => ?_).mono fun g hg => ?_
  · have hrow := List.fst_mem_of_mem_zipIdx hri
    refine (post_mapM_len (Q := Q) fun xj hxj => ?_).mono fun l hl' => ?_
    · exact h _ hrow _ (List.fst_mem_of_mem_zipIdx hxj) _ _
    · rw [List.length_zipIdx, hw _ hrow] at hl'
      exact hl'
  · rw [List.length_zipIdx, hl] at hg
    exact hg

theorem rows_len {α : Type} {f : α → Scalar S} {rows : List (List α)} {m : Mat S}
    (hm : m.entries = rows.map (·.map f)) (hs : (Expr.m m).Shape r c) :
    rows.length = r ∧ ∀ row ∈ rows, row.length = c := by
  obtain ⟨h1, h2⟩ := hs
  simp only [Expr.grid, hm] at h1 h2
  refine ⟨by simpa using h1, fun row hrow => ?_⟩
  simpa using h2 _ (List.mem_map_of_mem hrow)

/-- Well formed, not empty, and not a matrix. -/
def Expr.Flat (e : Expr S) : Prop := e.Nice ∧ ∀ m, e ≠ .m m

theorem Expr.Flat.simp {e : Expr S} (h : e.Flat) : Go.Post e.asSimplified Expr.Flat := by
  obtain ⟨⟨hc, r, c, hr, hc0, hs⟩, hm⟩ := h
  have hE : EArr r c (fun _ _ => Good (fun _ => True) Set.univ) e :=
    (EArr.self hs).mono fun i j x _ _ hx => by
      unfold Expr.entry at hx
      cases h1 : e.grid[i]? with
      | none => rw [h1] at hx; simp at hx
      | some row =>
        rw [h1] at hx
        exact good_of_univ (hc row (List.mem_of_getElem? h1) x (List.mem_of_getElem? hx))
  obtain ⟨e', h1, h2, h3, h4, -⟩ := hE.asSimplified hr fun _ _ _ _ => stable_good
  intro e'' he
  rw [h1, Except.ok.injEq] at he
  subst he
  refine ⟨nice_of_earr hr hc0 h2, fun m hm' => ?_⟩
  cases e with
  | s a => obtain ⟨b, hb⟩ := h3 ⟨a, rfl⟩; rw [hb] at hm'; cases hm'
  | v a => obtain ⟨b, hb⟩ := h4 ⟨a, rfl⟩; rw [hb] at hm'; cases hm'
  | m a => exact hm a rfl

theorem flat_s {a : Scalar S} (h : a.Canon) : (Expr.s a).Flat := by
  refine ⟨⟨?_, 1, 1, by decide, by decide, rfl, ?_⟩, fun m h => by cases h⟩
  · intro row hrow x hx
    simp only [Expr.grid, List.mem_singleton] at hrow
    subst hrow
    rw [List.mem_singleton] at hx
    exact hx ▸ h
  · intro row hrow
    simp only [Expr.grid, List.mem_singleton] at hrow
    subst hrow
    rfl

theorem concretizeV_flat {l : List (Scalar S)} (h : ∀ x ∈ l, x.Canon) :
    Go.Post (concretizeV l) Expr.Flat := by
  intro e he
  refine ⟨concretizeV_nice h e he, fun m hm => ?_⟩
  subst hm
  obtain ⟨v, -, h1⟩ := Go.bind_eq_ok.mp he
  obtain ⟨d, -, h2⟩ := Go.bind_eq_ok.mp h1
  split at h2
  · obtain ⟨a, -, h3⟩ := Go.bind_eq_ok.mp h2
    cases h3
  · cases h2

theorem vecPlus_flat {a : Vec S} {e : Expr S} (ha : (Expr.v a).Canon) (he : e.Canon) :
    Go.Post (a.plus e) Expr.Flat := by
  unfold Vec.plus
  refine Go.post_bind' fun _ _ => Go.post_bind' fun _ _ => Go.post_bind' fun _ _ =>
    Go.post_bind' fun _ _ => Go.post_bind' fun _ _ => ?_
  refine Go.Post.bind (P := Expr.Flat) ?_ fun _ h => h.simp
  cases e with
  | s b =>
    refine (Go.post_mapM (Q := Scalar.Canon) fun x hx => ?_).bind fun l hl => concretizeV_flat hl.2
    exact Scalar.plus_canon (vec_canon ha x hx) (simple_s he)
  | v b =>
    refine (Go.post_mapM (Q := Scalar.Canon) fun x hx => ?_).bind fun l hl => concretizeV_flat hl.2
    refine Vec.atVec_mem.bind fun y hy => ?_
    exact Scalar.plus_canon (vec_canon ha _ (List.fst_mem_of_mem_zipIdx hx)) (vec_canon he y hy)
  | m b => exact Go.post_throw

theorem vecMulTemplate_flat {a : Vec S} {b : Scalar S} (ha : (Expr.v a).Canon) (hb : b.Canon) :
    Go.Post (vecMulTemplate a (.s b)) Expr.Flat := by
  refine (Go.post_mapM (Q := Scalar.Canon) fun x hx => ?_).bind fun l hl => concretizeV_flat hl.2
  exact Scalar.mul_canon (vec_canon ha x hx) hb

theorem vecMulScalar_flat {a : Vec S} {b : Scalar S} (ha : (Expr.v a).Canon) (hb : b.Canon) :
    Go.Post (a.mulScalar b) Expr.Flat := by
  unfold Vec.mulScalar
  refine Go.post_bind' fun _ _ => Go.post_bind' fun _ _ => Go.post_bind' fun _ _ =>
    Go.post_bind' fun _ _ => ?_
  dsimp only
  split
  · exact fun _ h => by cases h
  · exact fun _ h => by cases h
  · exact (vecMulTemplate_flat ha hb).bind fun _ h => h.simp

theorem plus_flat {a e : Expr S} (ha : a.Flat) (he : e.Flat) : Go.Post (a.plus e) Expr.Flat := by
  cases a with
  | m a => exact absurd rfl (ha.2 a)
  | v a => exact vecPlus_flat ha.1.1 he.1.1
  | s a =>
    have ha' := simple_s ha.1.1
    cases e with
    | m e => exact absurd rfl (he.2 e)
    | s b =>
      have : Go.Post (Expr.plus (.s a) (.s b)) Expr.Flat :=
        (Scalar.plus_canon ha' (simple_s he.1.1)).bind fun _ h => Go.post_pure (flat_s h)
      exact this
    | v b =>
      cases a with
      | k d => exact Go.post_bind' fun _ _ => vecPlus_flat he.1.1 ha.1.1
      | var x => exact Go.post_bind' fun _ _ => (vecPlus_flat he.1.1 ha.1.1).bind fun _ h => h.simp
      | mono x =>
        exact Go.post_bind' fun _ _ => Go.post_bind' fun _ _ => Go.post_bind' fun _ _ =>
          Go.post_bind' fun _ _ => Go.post_throw
      | poly p =>
        have hadd : ∀ i : ℤ, Go.Post (do p.plus (← b.atVec i)) Scalar.Canon := fun i =>
          Vec.atVec_mem.bind fun y hy => Scalar.plus_canon (a := .poly p) ha' (vec_canon he.1.1 y hy)
        refine Go.post_bind' fun _ _ => Go.post_bind' fun _ _ => Go.post_bind' fun n _ => ?_
        dsimp only
        split
        · exact Vec.atVec_mem.bind fun y hy =>
            (Scalar.plus_canon (a := .poly p) ha' (vec_canon he.1.1 y hy)).bind fun z hz =>
              (flat_s hz).simp
        · exact (Go.post_mapM (Q := Scalar.Canon) fun (i : ℕ) _ => hadd i).bind fun l hl =>
            (concretizeV_flat hl.2).bind fun _ h => h.simp

theorem mulVecDense_flat {v : Var S} {l : List S} (hv : v.OK) : Go.Post (v.mulVecDense l) Expr.Flat := by
  refine Go.Post.bind (P := Expr.Flat) ?_ fun _ h => h.simp.bind fun _ h => h.simp
  refine Go.post_bind' fun _ _ => Go.post_bind' fun _ _ => Go.post_bind' fun _ _ =>
    Go.post_bind' fun _ _ => ?_
  refine (vecMulTemplate_flat (a := .k l) (b := .var v) ?_ hv).bind fun _ h => h.simp
  exact vec_canon_iff.mpr fun x hx => by obtain ⟨d, -, rfl⟩ := List.mem_map.mp hx; trivial

theorem kvec_flat {l : List S} (hl : l ≠ []) : (Expr.v (.k l)).Flat := by
  refine ⟨⟨vec_canon_iff.mpr fun x hx => ?_, l.length, 1, List.length_pos_of_ne_nil hl, by decide, ?_, ?_⟩,
    fun m h => by cases h⟩
  · obtain ⟨d, -, rfl⟩ := List.mem_map.mp hx
    trivial
  · simp [Expr.grid, Vec.entries]
  · intro row hrow
    obtain ⟨x, -, rfl⟩ := List.mem_map.mp hrow
    rfl

theorem kmat_canon {rows : List (List S)} : (Expr.m (.k rows)).Canon := by
  intro row hrow x hx
  obtain ⟨l, -, rfl⟩ := List.mem_map.mp hrow
  obtain ⟨y, -, rfl⟩ := List.mem_map.mp hx
  trivial

/-! ## Simplification, sums and products of well formed arrays -/

theorem Expr.Nice.simp {e : Expr S} (h : e.Nice) : Go.Post e.asSimplified Expr.Nice := by
  obtain ⟨hc, r, c, hr, hc0, hs⟩ := h
  have hE : EArr r c (fun _ _ => Good (fun _ => True) Set.univ) e :=
    (EArr.self hs).mono fun i j x _ _ hx => by
      unfold Expr.entry at hx
      cases h1 : e.grid[i]? with
      | none => rw [h1] at hx; simp at hx
      | some row =>
        rw [h1] at hx
        exact good_of_univ (hc row (List.mem_of_getElem? h1) x (List.mem_of_getElem? hx))
  obtain ⟨e', h1, h2, -⟩ := hE.asSimplified hr fun _ _ _ _ => stable_good
  intro e'' he
  rw [h1, Except.ok.injEq] at he
  exact he ▸ nice_of_earr hr hc0 h2

theorem simp_nice {x : Go (Expr S)} (h : Go.Post x Expr.Nice) :
    Go.Post (x >>= Expr.asSimplified) Expr.Nice := h.bind fun _ h => h.simp

theorem simp_m_nice {m : Mat S} (h : (Expr.m m).Nice) :
    Go.Post m.asSimplified (fun m' => (Expr.m m').Nice) := by
  intro m' hm'
  exact h.simp (.m m') (by simp [Expr.asSimplified, hm', Go.ok_bind, Go.pure_eq])

theorem nice_m {α : Type} {f : α → Scalar S} {rows : List (List α)} {m : Mat S}
    (hm : m.entries = rows.map (·.map f)) (hr : 0 < r) (hc : 0 < c)
    (h : Arr r c (fun _ _ x => (f x).Canon) rows) : (Expr.m m).Nice := by
  refine nice_of_earr hr hc (earr_m_iff.mpr ?_)
  unfold MArr
  rw [hm]
  exact Arr.map_iff.mpr (h.mono fun _ _ x _ _ hx => good_of_univ hx)

theorem kmat_nice {rows : List (List S)} (hs : (Expr.m (.k rows)).Shape r c) (hr : 0 < r)
    (hc : 0 < c) : (Expr.m (.k rows)).Nice := ⟨kmat_canon, r, c, hr, hc, hs⟩

theorem kToDense_post {rows : List (List S)} (hs : (Expr.m (.k rows)).Shape r c) (hr : 0 < r)
    (hc : 0 < c) : Go.Post (kToDense rows) (Arr r c (fun _ _ _ => True)) := by
  obtain ⟨hl, hw⟩ := rows_len (f := Scalar.k) rfl hs
  obtain ⟨g, h1, h2⟩ := kToDense_ok (Q := fun _ _ _ => True)
    (LArr.of_all hl fun _ row _ h => LArr.of_all (hw row h) fun _ _ _ _ => trivial) hr hc
  intro g' h
  rw [h1, Except.ok.injEq] at h
  exact h ▸ h2

theorem constRows_post {d : ℕ × ℕ} {x : S} :
    Go.Post (constRows d x) (fun ks => ks = List.replicate d.1 (List.replicate d.2 (GoNum.mul x GoNum.one))) := by
  unfold constRows
  split
  · exact Go.post_throw
  · exact Go.post_pure rfl

theorem kmPlus_nice {rows : List (List S)} {e : Expr S} (hs : (Expr.m (.k rows)).Shape r c) (hr : 0 < r)
    (hc : 0 < c) (he : e.Canon) : Go.Post (kmPlus rows e) Expr.Nice := by
  have hd : rowDims rows = .ok (r, c) :=
    (mat_good kmat_canon hs).dims hr fun _ _ _ h => h.check
  unfold kmPlus
  refine Go.post_bind' fun _ _ => ?_
  rw [hd, Go.ok_bind]
  refine Go.post_bind' fun _ _ => Go.post_bind' fun _ _ => ?_
  rcases e with (d | v | q | q) | (l | l | l | l) | b
  case s.k =>
    refine constRows_post.bind fun cs hcs => (kToDense_post hs hr hc).bind fun ks hks => Go.post_pure ?_
    subst hcs
    refine nice_m (f := Scalar.k) rfl hr hc (LArr.of_all ?_ fun i row _ hrow => LArr.of_all ?_ fun _ _ _ _ => trivial)
    · rw [List.length_zipWith, List.length_replicate, hks.1, min_self]
    · obtain ⟨i, hi, rfl⟩ := List.mem_iff_getElem.mp hrow
      rw [List.getElem_zipWith, List.length_zipWith, List.getElem_replicate, List.length_replicate,
        Arr.rowLen hks (List.getElem_mem _), min_self]
  case s.var =>
    have hv : (Expr.m (.v (List.replicate r (List.replicate c v)))).Canon := by
      intro row hrow x hx
      obtain ⟨l, hl, rfl⟩ := List.mem_map.mp hrow
      obtain ⟨y, hy, rfl⟩ := List.mem_map.mp hx
      rw [List.eq_of_mem_replicate hl] at hy
      rw [List.eq_of_mem_replicate hy]
      exact simple_s he
    exact (matPlusTemplate_nice kmat_canon hv hs hr hc).bind fun m hm => (simp_m_nice hm).bind
      fun m' hm' => (simp_m_nice hm').bind fun m' hm' => Go.post_pure hm'
  case m =>
    exact (matPlusTemplate_nice kmat_canon he hs hr hc).bind fun m hm => (simp_m_nice hm).bind
      fun m' hm' => Go.post_pure hm'
  all_goals exact Go.post_throw

theorem vmPlusK_nice {rows : List (List (Var S))} {ks : List (List S)}
    (ha : (Expr.m (.v rows)).Canon) (hs : (Expr.m (.v rows)).Shape r c) (hr : 0 < r) (hc : 0 < c) :
    Go.Post (vmPlusK rows ks) Expr.Nice := by
  obtain ⟨hl, hw⟩ := rows_len (f := Scalar.var) rfl hs
  refine Go.Post.bind (P := Arr r c (fun _ _ p => (Scalar.poly p).Canon)) ?_ fun g hg =>
    Go.post_pure (nice_m (f := Scalar.poly) rfl hr hc hg)
  refine post_mapZip (f := fun xj i => do
    let c ← goGet2 ks i xj.2
    match ← xj.1.plus (.k c) with
    | .poly p => pure p
    | _ => throw .typeAssert) hl hw fun row hrow x hx i j => Go.post_bind' fun d _ => ?_
  have hv : (Scalar.var x).Canon := ha _ (List.mem_map_of_mem hrow) _ (List.mem_map_of_mem hx)
  refine (Scalar.plus_canon (a := .var x) (b := .k d) hv trivial).bind fun y hy => ?_
  cases y with
  | poly p => exact Go.post_pure hy
  | _ => exact Go.post_throw

theorem vmPlus_nice {rows : List (List (Var S))} {e : Expr S} (ha : (Expr.m (.v rows)).Canon)
    (hs : (Expr.m (.v rows)).Shape r c) (hr : 0 < r) (hc : 0 < c) :
    Go.Post (vmPlus rows e) Expr.Nice := by
  refine Go.post_bind' fun _ _ => Go.post_bind' fun _ _ => Go.post_bind' fun _ _ =>
    Go.post_bind' fun _ _ => Go.post_bind' fun _ _ => ?_
  rcases e with (_ | _ | _ | _) | (_ | _ | _ | _) | (_ | _ | _ | _)
  case s.k d => exact Go.post_bind' fun _ _ => vmPlusK_nice ha hs hr hc
  case m.k ks => exact vmPlusK_nice ha hs hr hc
  all_goals exact Go.post_throw

theorem mmPlus_nice {rows : List (List (Mono S))} {e : Expr S} (ha : (Expr.m (.m rows)).Canon)
    (hs : (Expr.m (.m rows)).Shape r c) (hr : 0 < r) (hc : 0 < c) (he : e.Canon) :
    Go.Post (mmPlus rows e) Expr.Nice := by
  obtain ⟨hl, hw⟩ := rows_len (f := Scalar.mono) rfl hs
  have hA : Arr r c (fun _ _ x => ∃ row ∈ rows, x ∈ row) rows := grid_arr (f := Scalar.mono) hl
    (fun row hrow => by obtain ⟨l, h1, rfl⟩ := List.mem_map.mp hrow; simpa using hw l h1)
  have hm : ∀ row ∈ rows, ∀ q ∈ row, (Scalar.mono q).Canon := fun row h1 q h2 =>
    ha _ (List.mem_map_of_mem h1) _ (List.mem_map_of_mem h2)
  have hentry : ∀ row ∈ rows, ∀ q ∈ row, ∀ p : Poly S, (Scalar.poly p).Canon →
      Go.Post (mmPlusEntry q p.monos) (fun p => (Scalar.poly p).Canon) := fun row h1 q h2 p hp =>
    Go.post_bind' fun _ _ => Go.post_pure ⟨by simp, fun x hx => by
      rcases List.mem_cons.mp hx with rfl | hx
      · exact hm row h1 _ h2
      · exact hp.all x hx⟩
  refine Go.post_bind' fun _ _ => Go.post_bind' fun _ _ => Go.post_bind' fun _ _ =>
    Go.post_bind' fun _ _ => Go.post_bind' fun _ _ => ?_
  rcases e with b | (_ | _ | _ | _) | (_ | _ | _ | ps)
  case s =>
    have hb : (Scalar.poly b.toPoly).Canon :=
      (good_iff.mp (good_toPoly (good_of_univ (simple_s he)))).1
    exact (post_mapM2 hA fun q ⟨row, h1, h2⟩ => hentry row h1 q h2 _ hb).bind fun g hg =>
      Go.post_pure (nice_m (f := Scalar.poly) rfl hr hc hg)
  case m.p =>
    refine (post_mapZip (Q := fun p => (Scalar.poly p).Canon) (f := fun mj i => do
      let p ← goGet2 ps i mj.2
      mmPlusEntry mj.1 p.monos) hl hw fun row h1 q h2 i j => ?_).bind fun g hg =>
        Go.post_pure (nice_m (f := Scalar.poly) rfl hr hc hg)
    exact goGet2_mem.bind fun p ⟨row', h3, h4⟩ => hentry row h1 q h2 p
      (he _ (List.mem_map_of_mem h3) _ (List.mem_map_of_mem h4))
  all_goals exact Go.post_throw

theorem pmPlus_nice {rows : List (List (Poly S))} {e : Expr S} (ha : (Expr.m (.p rows)).Canon)
    (hs : (Expr.m (.p rows)).Shape r c) (hr : 0 < r) (hc : 0 < c) (he : e.Canon) :
    Go.Post (pmPlus rows e) Expr.Nice := by
  obtain ⟨hl, hw⟩ := rows_len (f := Scalar.poly) rfl hs
  have hA : Arr r c (fun _ _ x => ∃ row ∈ rows, x ∈ row) rows := grid_arr (f := Scalar.poly) hl
    (fun row hrow => by obtain ⟨l, h1, rfl⟩ := List.mem_map.mp hrow; simpa using hw l h1)
  have hp : ∀ row ∈ rows, ∀ p ∈ row, (Scalar.poly p).Canon := fun row h1 p h2 =>
    ha _ (List.mem_map_of_mem h1) _ (List.mem_map_of_mem h2)
  have hadd : ∀ b : Scalar S, b.Canon →
      Go.Post (rows.mapM (·.mapM (fun p => p.plus b))) (Arr r c (fun _ _ => Scalar.Canon)) := fun b hb =>
    post_mapM2 hA fun p ⟨row, h1, h2⟩ => Scalar.plus_canon (a := .poly p) (hp row h1 p h2) hb
  refine Go.post_bind' fun _ _ => Go.post_bind' fun _ _ => Go.post_bind' fun _ _ =>
    Go.post_bind' fun _ _ => Go.post_bind' fun _ _ => ?_
  rcases e with (d | v | q | q) | (_ | _ | _ | _) | (ks | _ | _ | ps)
  case s.k => exact (hadd (.k d) trivial).bind fun g hg => simp_nice (concretizeM_nice hr hc hg)
  case s.mono =>
    have hq : (Scalar.poly q.toPoly).Canon := (good_iff.mp (good_toPoly (good_of_univ (simple_s he)))).1
    exact (hadd _ hq).bind fun g hg => (concretizeM_nice hr hc hg).bind fun e' h' =>
      h'.simp.bind fun _ h => h.simp
  case s.poly => exact (hadd _ (simple_s he)).bind fun g hg => simp_nice (concretizeM_nice hr hc hg)
  case m.k =>
    refine (post_mapZip (Q := Scalar.Canon) (f := fun pj i => do
      let c ← Mat.at (.k ks) i pj.2
      pj.1.plus c) hl hw fun row h1 p h2 i j => ?_).bind fun g hg => simp_nice (concretizeM_nice hr hc hg)
    exact (Mat.at_canon he).bind fun y hy => Scalar.plus_canon (a := .poly p) (hp row h1 p h2) hy
  case m.p =>
    refine (post_mapZip (Q := Scalar.Canon) (f := fun pj i => do
      let q ← goGet2 ps i pj.2
      pj.1.plus (.poly q)) hl hw fun row h1 p h2 i j => ?_).bind fun g hg =>
        simp_nice (concretizeM_nice hr hc hg)
    exact goGet2_mem.bind fun q ⟨row', h3, h4⟩ => Scalar.plus_canon (a := .poly p) (b := .poly q)
      (hp row h1 p h2) (he _ (List.mem_map_of_mem h3) _ (List.mem_map_of_mem h4))
  all_goals exact Go.post_throw

theorem polyPlusExpr_nice {p : Poly S} {e : Expr S} (hp : (Scalar.poly p).Canon) (he : e.Canon)
    (hs : e.Shape r c) (hr : 0 < r) (hc : 0 < c) : Go.Post (p.plusExpr e) Expr.Nice := by
  cases e with
  | s b => exact (Scalar.plus_canon (a := .poly p) hp (simple_s he)).bind fun _ h => Go.post_pure (flat_s h).1
  | v b =>
    have hadd : ∀ i : ℤ, Go.Post (do p.plus (← b.atVec i)) Scalar.Canon := fun i =>
      Vec.atVec_mem.bind fun y hy => Scalar.plus_canon (a := .poly p) hp (vec_canon he y hy)
    refine Go.post_bind' fun _ _ => Go.post_bind' fun _ _ => Go.post_bind' fun n _ => ?_
    dsimp only
    split
    · exact Vec.atVec_mem.bind fun y hy =>
        (Scalar.plus_canon (a := .poly p) hp (vec_canon he y hy)).bind fun z hz =>
          (flat_s hz).1.simp
    · exact (Go.post_mapM (Q := Scalar.Canon) fun (i : ℕ) _ => hadd i).bind fun l hl =>
        simp_nice (concretizeV_nice hl.2)
  | m b =>
    have hM := mat_good he hs
    have hd : b.dims = .ok (r, c) := (earr_m_iff.mpr hM).dims hr fun _ _ _ h => h.check
    have hadd : ∀ i j : ℤ, Go.Post (do p.plus (← b.at i j)) Scalar.Canon := fun i j =>
      (Mat.at_canon he).bind fun y hy => Scalar.plus_canon (a := .poly p) hp hy
    unfold Poly.plusExpr
    refine Go.post_bind' fun _ _ => Go.post_bind' fun _ _ => ?_
    rw [hd, Go.ok_bind]
    dsimp only
    split
    · exact (Mat.at_canon he).bind fun y hy =>
        (Scalar.plus_canon (a := .poly p) hp hy).bind fun z hz => (flat_s hz).1.simp
    · exact (post_mapRange (Q := Scalar.Canon) fun i j => hadd i j).bind fun g hg =>
        simp_nice (concretizeM_nice hr hc hg)

/-- The sum of well formed expressions is well formed. -/
theorem plus_nice {a e : Expr S} (ha : a.Nice) (he : e.Nice) : Go.Post (a.plus e) Expr.Nice := by
  obtain ⟨ha, r, c, hr, hc, hsa⟩ := ha
  obtain ⟨he, s, n, hs, hn, hse⟩ := he
  cases a with
  | s a =>
    have ha' := simple_s ha
    cases e with
    | s b =>
      have : Go.Post (Expr.plus (.s a) (.s b)) Expr.Nice :=
        (Scalar.plus_canon ha' (simple_s he)).bind fun _ h => Go.post_pure (flat_s h).1
      exact this
    | v b =>
      cases a with
      | k d => exact Go.post_bind' fun _ _ => (vecPlus_flat he ha).mono fun _ h => h.1
      | var x => exact Go.post_bind' fun _ _ => simp_nice ((vecPlus_flat he ha).mono fun _ h => h.1)
      | mono x =>
        exact Go.post_bind' fun _ _ => Go.post_bind' fun _ _ => Go.post_bind' fun _ _ =>
          Go.post_bind' fun _ _ => Go.post_throw
      | poly p => exact polyPlusExpr_nice ha' he hse hs hn
    | m b =>
      cases a with
      | k d =>
        refine Go.post_bind' fun _ _ => ?_
        cases b with
        | k rows => exact kmPlus_nice hse hs hn ha
        | v rows => exact vmPlus_nice he hse hs hn
        | m rows => exact mmPlus_nice he hse hs hn ha
        | p rows => exact pmPlus_nice he hse hs hn ha
      | var x => exact Go.post_bind' fun _ _ => Go.post_throw
      | mono x =>
        exact Go.post_bind' fun _ _ => Go.post_bind' fun _ _ => Go.post_bind' fun _ _ =>
          Go.post_bind' fun _ _ => Go.post_throw
      | poly p => exact polyPlusExpr_nice ha' he hse hs hn
  | v a => exact (vecPlus_flat ha he).mono fun _ h => h.1
  | m a =>
    cases a with
    | k rows => exact kmPlus_nice hsa hr hc he
    | v rows => exact vmPlus_nice ha hsa hr hc
    | m rows => exact mmPlus_nice ha hsa hr hc he
    | p rows => exact pmPlus_nice ha hsa hr hc he

theorem kmMul_nice {rows : List (List S)} {e : Expr S} (hsa : (Expr.m (.k rows)).Shape r n) (hr : 0 < r)
    (hn : 0 < n) (he : e.Canon) (hse : e.Shape s c) (hs : 0 < s) (hc : 0 < c) :
    Go.Post (kmMul rows e) Expr.Nice := by
  have hd : rowDims rows = .ok (r, n) :=
    (mat_good kmat_canon hsa).dims hr fun _ _ _ h => h.check
  unfold kmMul
  refine Go.post_bind' fun _ _ => ?_
  rw [hd, Go.ok_bind]
  refine Go.post_bind' fun _ _ => Go.post_bind' fun _ _ => ?_
  rcases e with (d | v | q | q) | (l | l | l | l) | b
  case s.k =>
    exact (kToDense_post hsa hr hn).bind fun ks hks => Go.post_pure
      (nice_m (f := Scalar.k) rfl hr hn (Arr.map_iff.mpr (hks.mono fun _ _ _ _ _ _ => trivial)))
  case s.poly =>
    refine (post_mapRange (Q := Scalar.Canon) fun i j => Go.post_bind' fun x _ => ?_).bind
      fun g hg => simp_nice (concretizeM_nice hr hn hg)
    have hx : (Scalar.poly (kToPoly x)).Canon :=
      (good_iff.mp (good_toPoly (a := .k x) (good_of_univ (s := .k x) trivial))).1
    exact Scalar.mul_canon (a := .poly (kToPoly x)) (b := .poly q) hx (simple_s he)
  case v.v =>
    have hl := vec_canon he
    dsimp only
    split
    · refine Go.Post.bind (P := Scalar.Canon) ?_ fun out h =>
        (Scalar.asSimplified_canon h).bind fun _ h => Go.post_pure (flat_s h).1
      refine Go.post_foldlM (I := Scalar.Canon) trivial fun vi hvi acc hacc => Go.post_bind' fun x _ => ?_
      refine (Scalar.mul_canon (a := .var vi.1) (b := .k x) ?_ trivial).bind fun y hy =>
        Scalar.plus_canon hacc hy
      exact hl _ (List.mem_map_of_mem (List.fst_mem_of_mem_zipIdx hvi))
    · refine Go.Post.bind (P := Expr.Flat) ?_ fun _ h => h.1.simp
      refine Go.post_foldlM (I := Expr.Flat) ?_ fun j _ acc hacc => ?_
      · exact kvec_flat (by intro h; rw [List.replicate_eq_nil_iff] at h; omega)
      · refine Go.post_bind' fun _ _ => Go.post_bind' fun col _ => goGet_mem.bind fun v hv => ?_
        exact (mulVecDense_flat (hl _ (List.mem_map_of_mem hv))).bind fun y hy => plus_flat hacc hy
  case m =>
    exact simp_nice (matMulTemplate_nice kmat_canon he hsa hr hse hs hc)
  all_goals exact Go.post_throw

theorem vmMul_nice {rows : List (List (Var S))} {e : Expr S} (ha : (Expr.m (.v rows)).Canon)
    (hsa : (Expr.m (.v rows)).Shape r n) (hr : 0 < r)
    (hn : 0 < n) (he : e.Canon) (hse : e.Shape s c) (hs : 0 < s) (hc : 0 < c) :
    Go.Post (vmMul rows e) Expr.Nice := by
  rcases e with (d | v | q | q) | (l | l | l | l) | b
  case s.k =>
    refine Go.post_bind' fun _ _ => Go.post_bind' fun _ _ => Go.post_bind' fun _ _ =>
      Go.post_bind' fun _ _ => Go.post_bind' fun _ _ => ?_
    have hA := grid_arr (f := Scalar.var) (by simpa [Expr.grid, Mat.entries] using hsa.1) hsa.2
    refine Go.Post.bind (post_mapM2 (Q := fun m => (Scalar.mono m).Canon) hA fun v ⟨row, h1, h2⟩ => ?_)
      fun g hg => Expr.Nice.simp (nice_m (f := Scalar.mono) rfl hr hn hg)
    refine Go.Post.bind (Scalar.mul_canon (a := .var v) (b := .k d)
      (ha _ (List.mem_map_of_mem h1) _ (List.mem_map_of_mem h2)) trivial) fun s hs => ?_
    cases s with
    | mono m => exact Go.post_pure hs
    | k _ => exact Go.post_throw
    | var _ => exact Go.post_throw
    | poly _ => exact Go.post_throw
  case v.k =>
    refine Go.post_bind' fun _ _ => Go.post_bind' fun _ _ => Go.post_bind' fun _ _ =>
      Go.post_bind' fun _ _ => Go.post_bind' fun _ _ => ?_
    refine Go.Post.bind (Go.post_mapM (Q := Scalar.Canon) fun row hrow => ?_) fun l hl =>
      simp_nice (concretizeV_nice hl.2)
    refine Go.post_foldlM (I := Scalar.Canon) trivial fun xk hx acc hacc => ?_
    refine Go.post_bind' fun d _ => Go.Post.bind (Scalar.mul_canon (a := .var xk.1) (b := .k d) ?_ trivial)
      fun z hz => Scalar.plus_canon hacc hz
    exact ha _ (List.mem_map_of_mem hrow) _ (List.mem_map_of_mem (List.fst_mem_of_mem_zipIdx hx))
  case v.v =>
    have hl := vec_canon he
    refine Go.post_bind' fun _ _ => Go.post_bind' fun _ _ => Go.post_bind' fun _ _ =>
      Go.post_bind' fun _ _ => Go.post_bind' fun _ _ => ?_
    refine Go.Post.bind (P := Expr.Flat) ?_ fun _ h => h.1.simp
    refine Go.post_foldlM (I := Expr.Flat) (flat_s trivial) fun j _ acc hacc => ?_
    refine (Go.post_mapM (Q := fun x => (Scalar.var x).Canon) fun row hrow => ?_).bind fun col hcol =>
      goGet_mem.bind fun v hv => ?_
    · exact goGet_mem.mono fun x hx => ha _ (List.mem_map_of_mem hrow) _ (List.mem_map_of_mem hx)
    · refine Go.Post.bind (P := Expr.Flat) ?_ fun y hy => plus_flat hacc hy
      refine vecMulScalar_flat (a := .v col) (b := .var v) (vec_canon_iff.mpr fun x hx => ?_)
        (hl _ (List.mem_map_of_mem hv))
      obtain ⟨y, hy, rfl⟩ := List.mem_map.mp hx
      exact hcol.2 y hy
  case m =>
    exact Go.post_bind' fun _ _ => Go.post_bind' fun _ _ => Go.post_bind' fun _ _ =>
      Go.post_bind' fun _ _ => Go.post_bind' fun _ _ =>
        simp_nice (matMulTemplate_nice ha he hsa hr hse hs hc)
  all_goals
    exact Go.post_bind' fun _ _ => Go.post_bind' fun _ _ => Go.post_bind' fun _ _ =>
      Go.post_bind' fun _ _ => Go.post_bind' fun _ _ => Go.post_throw

theorem concretizeVec_nice {l : List (Scalar S)} (h : ∀ x ∈ l, x.Canon) :
    Go.Post (concretizeVec l) (fun v => (Expr.v v).Nice) := by
  by_cases hl : l = []
  · subst hl
    intro e he
    cases he
  · have hp : 0 < l.length := List.length_pos_of_ne_nil hl
    obtain ⟨v, h1, h2⟩ := concretizeVec_conv (n := l.length)
      (Q := fun _ => Good (fun _ => True) Set.univ)
      (LArr.of_all rfl fun _ x _ hx => good_of_univ (h x hx)) hp fun _ _ => stable_good.toConv
    intro e' he'
    rw [h1, Except.ok.injEq] at he'
    exact he' ▸ nice_of_earr hp (by decide) (earr_v_iff.mpr h2)

theorem mm_arr {rows : List (List (Mono S))} (ha : (Expr.m (.m rows)).Canon)
    (hs : (Expr.m (.m rows)).Shape r c) : Arr r c (fun _ _ q => (Scalar.mono q).Canon) rows := by
  obtain ⟨hl, hw⟩ := rows_len (f := Scalar.mono) rfl hs
  exact LArr.of_all hl fun _ row _ h => LArr.of_all (hw row h) fun _ q _ hq =>
    ha _ (List.mem_map_of_mem h) _ (List.mem_map_of_mem hq)

theorem mmMul_nice {rows : List (List (Mono S))} {e : Expr S} (ha : (Expr.m (.m rows)).Canon)
    (hsa : (Expr.m (.m rows)).Shape r n) (hr : 0 < r) (hn : 0 < n)
    (he : e.Canon) (hse : e.Shape s c) (hs : 0 < s) (hc : 0 < c) :
    Go.Post (mmMul rows e) Expr.Nice := by
  refine Go.post_bind' fun _ _ => Go.post_bind' fun _ _ => Go.post_bind' fun _ _ =>
    Go.post_bind' fun _ _ => Go.post_bind' fun _ _ => ?_
  have hm : ∀ row ∈ rows, ∀ q ∈ row, (Scalar.mono q).Canon := fun row h1 q h2 =>
    ha _ (List.mem_map_of_mem h1) _ (List.mem_map_of_mem h2)
  rcases e with (d | v | q | q) | (l | l | l | l) | b
  case s.k => exact Go.post_pure (nice_m (f := Scalar.mono) rfl hr hn (Arr.map_iff.mpr
      ((mm_arr ha hsa).mono fun _ _ q _ _ hq =>
        (Mono.mulK_good (P := fun _ => True) (D := Set.univ) (good_of_univ (s := .mono q) hq) d).canon)))
  case v.v =>
    have hl := vec_canon he
    have hv : ∀ v ∈ l, (Scalar.var v).Canon := fun v h => hl _ (List.mem_map_of_mem h)
    dsimp only
    split
    · refine goGet_mem.bind fun row hrow => ?_
      refine Go.Post.bind (P := Scalar.Canon) ?_ fun out h =>
        (Scalar.asSimplified_canon h).bind fun _ h => Go.post_pure (flat_s h).1
      refine Go.post_foldlM (I := Scalar.Canon) trivial fun mi hmi acc hacc =>
        goGet_mem.bind fun x hx => ?_
      exact (Scalar.mul_canon (a := .mono mi.1) (b := .var x)
        (hm row hrow _ (List.fst_mem_of_mem_zipIdx hmi)) (hv x hx)).bind fun y hy =>
        Scalar.plus_canon hacc hy
    · refine (Go.post_mapM (Q := Scalar.Canon) fun row hrow => ?_).bind fun l' hl' =>
        (concretizeVec_nice hl'.2).bind fun _ h => Go.post_pure h
      have ht : ∀ q ∈ row, ∀ v ∈ l, Go.Post (q.toPoly.mul (.var v)) Scalar.Canon := fun q h1 v h2 => by
        have hq : (Scalar.poly q.toPoly).Canon :=
          (good_iff.mp (good_toPoly (good_of_univ (hm row hrow q h1)))).1
        exact Scalar.mul_canon (a := .poly q.toPoly) (b := .var v) hq (hv v h2)
      refine goGet_mem.bind fun m0 h0 => goGet_mem.bind fun v0 hv0 => (ht m0 h0 v0 hv0).bind fun i hi => ?_
      refine Go.post_foldlM (I := Scalar.Canon) hi fun mj hmj acc hacc => goGet_mem.bind fun v h2 =>
        (ht mj.1 (List.fst_mem_of_mem_zipIdx (List.mem_of_mem_drop hmj)) v h2).bind fun t ht' =>
          (Scalar.plus_canon hacc ht').bind fun x hx => ?_
      cases x with
      | poly p => exact Go.post_pure hx
      | _ => exact Go.post_throw
  case m => exact matMulTemplate_nice ha he hsa hr hse hs hc
  all_goals exact Go.post_throw

theorem pmMul_nice {rows : List (List (Poly S))} {e : Expr S} (ha : (Expr.m (.p rows)).Canon)
    (hsa : (Expr.m (.p rows)).Shape r n) (hr : 0 < r) (hn : 0 < n)
    (he : e.Canon) (hse : e.Shape s c) (hs : 0 < s) (hc : 0 < c) :
    Go.Post (pmMul rows e) Expr.Nice := by
  rcases e with (d | v | q | q) | (l | l | l | l) | b
  all_goals
    refine Go.post_bind' fun _ _ => Go.post_bind' fun _ _ => Go.post_bind' fun _ _ =>
      Go.post_bind' fun _ _ => Go.post_bind' fun _ _ => ?_
  case s.k =>
    have hA := grid_arr (f := Scalar.poly) (by simpa [Expr.grid, Mat.entries] using hsa.1) hsa.2
    refine Go.Post.bind (post_mapM2 (Q := Scalar.Canon) hA fun p ⟨row, h1, h2⟩ => ?_) fun g hg =>
      simp_nice (concretizeM_nice hr hn hg)
    exact Scalar.mul_canon (a := .poly p) (b := .k d)
      (ha _ (List.mem_map_of_mem h1) _ (List.mem_map_of_mem h2)) trivial
  case v.v =>
    have hl := vec_canon he
    refine (Go.post_mapM (Q := Scalar.Canon) fun row hrow => ?_).bind fun sums hsums => ?_
    · refine Go.post_foldlM (I := Scalar.Canon) trivial fun pj hpj acc hacc =>
        goGet_mem.bind fun v h2 => ?_
      exact (Scalar.mul_canon (a := .poly pj.1) (b := .var v)
        (ha _ (List.mem_map_of_mem hrow) _ (List.mem_map_of_mem (List.fst_mem_of_mem_zipIdx hpj)))
        (hl _ (List.mem_map_of_mem h2))).bind fun y hy => Scalar.plus_canon hacc hy
    · split
      · exact goGet_mem.bind fun out h => (Scalar.asSimplified_canon (hsums.2 _ h)).bind fun _ h =>
          Go.post_pure (flat_s h).1
      · exact concretizeV_nice hsums.2
  case m => exact matMulTemplate_nice ha he hsa hr hse hs hc
  all_goals exact Go.post_throw

theorem vecMul_nice {a : Vec S} {e : Expr S} (ha : (Expr.v a).Canon) (he : e.Canon) :
    Go.Post (a.mul e) Expr.Nice := by
  cases e with
  | s b => exact (vecMulScalar_flat ha (simple_s he)).mono fun _ h => h.1
  | v b =>
    have fin : ∀ x : Go (Expr S), Go.Post x Expr.Flat → Go.Post (x >>= Expr.asSimplified) Expr.Nice :=
      fun x hx => hx.bind fun _ h => h.1.simp
    refine Go.post_bind' fun _ _ => Go.post_bind' fun _ _ => Go.post_bind' fun _ _ =>
      Go.post_bind' fun _ _ => Go.post_bind' fun _ _ => ?_
    dsimp only
    split
    · exact goGet_mem.bind fun c hc => fin _ (vecMulScalar_flat ha trivial)
    · exact goGet_mem.bind fun c hc =>
        fin _ (vecMulScalar_flat ha (vec_canon he _ (List.mem_map_of_mem hc)))
    · exact Vec.atVec_mem.bind fun y hy => fin _ (vecMulScalar_flat ha (vec_canon he y hy))
    · exact goGet_mem.bind fun c hc =>
        fin _ (vecMulScalar_flat ha (vec_canon he _ (List.mem_map_of_mem hc)))
    · exact fun _ h => by cases h
  | m b =>
    exact Go.post_bind' fun _ _ => Go.post_bind' fun _ _ => Go.post_bind' fun _ _ =>
      Go.post_bind' fun _ _ => Go.post_bind' fun _ _ => Go.post_throw

theorem matMul_nice {a : Mat S} {e : Expr S} (ha : (Expr.m a).Nice) (he : e.Nice) :
    Go.Post (a.mul e) Expr.Nice := by
  obtain ⟨ha, r, c, hr, hc, hsa⟩ := ha
  obtain ⟨he, s, n, hs, hn, hse⟩ := he
  cases a with
  | k rows => exact kmMul_nice hsa hr hc he hse hs hn
  | v rows => exact vmMul_nice ha hsa hr hc he hse hs hn
  | m rows => exact mmMul_nice ha hsa hr hc he hse hs hn
  | p rows => exact pmMul_nice ha hsa hr hc he hse hs hn

/-- The product of well formed expressions is well formed. -/
theorem mul_nice {a e : Expr S} (ha : a.Nice) (he : e.Nice) : Go.Post (a.mul e) Expr.Nice := by
  cases a with
  | s a =>
    have ha' := simple_s ha.1
    cases e with
    | s b =>
      have : Go.Post (Expr.mul (.s a) (.s b)) Expr.Nice :=
        (Scalar.mul_canon ha' (simple_s he.1)).bind fun _ h => Go.post_pure (flat_s h).1
      exact this
    | v b =>
      cases a with
      | k d => exact Go.post_bind' fun _ _ => Go.post_throw
      | var x =>
        exact Go.post_bind' fun _ _ => Go.post_bind' fun _ _ => Go.post_bind' fun _ _ =>
          Go.post_bind' fun _ _ => simp_nice ((vecMulTemplate_flat (b := .var x) he.1 ha').mono fun _ h => h.1)
      | mono x =>
        exact Go.post_bind' fun _ _ => Go.post_bind' fun _ _ => Go.post_bind' fun _ _ =>
          Go.post_bind' fun _ _ => Go.post_throw
      | poly p => exact Go.post_bind' fun _ _ => Go.post_bind' fun _ _ => simp_nice (vecMul_nice he.1 ha.1)
    | m b =>
      cases a with
      | k d => exact Go.post_bind' fun _ _ => Go.post_throw
      | var x =>
        exact Go.post_bind' fun _ _ => Go.post_bind' fun _ _ => Go.post_bind' fun _ _ =>
          Go.post_bind' fun _ _ => Go.post_throw
      | mono x =>
        exact Go.post_bind' fun _ _ => Go.post_bind' fun _ _ => Go.post_bind' fun _ _ =>
          Go.post_bind' fun _ _ => Go.post_throw
      | poly p => exact Go.post_bind' fun _ _ => Go.post_bind' fun _ _ => simp_nice (matMul_nice he ha)
  | v a => exact vecMul_nice ha.1 he.1
  | m a => exact matMul_nice ha he

theorem mulF64_nice {a : Expr S} (ha : a.Nice) (d : S) : Go.Post (a.mulF64 d) Expr.Nice := by
  have hk : (Expr.s (.k d)).Nice := (flat_s (a := .k d) trivial).1
  rcases a with (x | v | q | q) | (l | l | l | l) | (g | g | g | g)
  case s.k => exact Go.post_pure (flat_s (a := .k _) trivial).1
  case s.mono =>
    exact (Scalar.mul_canon (a := .mono q) (b := .k d) (simple_s ha.1) trivial).bind
      fun _ h => Go.post_pure (flat_s h).1
  case v.v => exact vecMul_nice ha.1 hk.1
  case m.k => exact matMul_nice ha hk
  case m.m => exact matMul_nice ha hk
  all_goals exact simp_nice (mul_nice ha hk)

/-- The difference of well formed expressions is well formed. -/
theorem minus_nice {a e : Expr S} (ha : a.Nice) (he : e.Nice) : Go.Post (a.minus e) Expr.Nice := by
  have hg : Go.Post (a.minusGen e) Expr.Nice := (mulF64_nice he _).bind fun _ h => plus_nice ha h
  unfold Expr.minus
  split
  · exact Go.post_bind' fun _ _ => hg
  · exact Go.post_bind' fun _ _ => Go.post_bind' fun _ _ => hg
  · refine Go.post_bind' fun _ _ => Go.post_bind' fun _ _ => Go.post_bind' fun _ _ => ?_
    split
    · exact Go.post_throw
    · exact hg
  · exact Go.post_bind' fun _ _ => Go.post_bind' fun _ _ => Go.post_bind' fun _ _ =>
      Go.post_bind' fun _ _ => Go.post_bind' fun _ _ => hg

end Verif
