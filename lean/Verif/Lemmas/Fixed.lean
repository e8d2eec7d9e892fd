import Verif.Lemmas.Simp
import Verif.Lemmas.Mul
import Verif.Props.Reject

/-!
# Results that simplification does not change
-/

set_option linter.unusedSectionVars false

namespace Verif

variable {R : Type} [Field R] [LinearOrder R] {S : Type} [GoNum S]

/-- Simplification returns `e` itself. -/
def Expr.Fix (e : Expr S) : Prop := e.asSimplified = .ok e

/-- Well formed and not empty. -/
def Expr.Nice (e : Expr S) : Prop := e.Canon ∧ ∃ r c, 0 < r ∧ 0 < c ∧ e.Shape r c

theorem nice_of_earr {e : Expr S} {r c : ℕ} (hr : 0 < r) (hc : 0 < c)
    (h : EArr r c (fun _ _ => Good (fun _ => True) Set.univ) e) : e.Nice := by
  refine ⟨fun row hrow a ha => ?_, r, c, hr, hc, h.1, fun row hrow => Arr.rowLen h hrow⟩
  obtain ⟨i, j, -, -, hg⟩ := Arr.mem h hrow ha
  exact (good_iff.mp hg).1

theorem Expr.Nice.fix {e : Expr R} (h : e.Nice) : Go.Post e.asSimplified Expr.Fix := by
  obtain ⟨hc, r, c, hr, hc0, hs⟩ := h
  exact fun e' he => Expr.asSimplified_fixed hc hs hr hc0 he

theorem Expr.Fix.fix {e : Expr R} (h : e.Fix) : Go.Post e.asSimplified Expr.Fix := by
  intro e' he
  rw [h, Except.ok.injEq] at he
  subst he
  exact h

theorem Scalar.fix_expr {a : Scalar R} (h : a.asSimplified = .ok a) : (Expr.s a).Fix := by
  simp [Expr.Fix, Expr.asSimplified, h, Go.ok_bind, Go.pure_eq]

theorem Scalar.simp_fix {a : Scalar R} (h : a.Canon) :
    Go.Post a.asSimplified (fun r => r.asSimplified = .ok r) := by
  obtain ⟨s, h1, h2⟩ := asSimplified_idempotent h
  intro r hr
  rw [h1, Except.ok.injEq] at hr
  exact hr ▸ h2

theorem Scalar.plus_fix {a b : Scalar R} (ha : a.Canon) (hb : b.Canon) :
    Go.Post (a.plus b) (fun r => r.asSimplified = .ok r) := by
  obtain ⟨s, hs, e⟩ := Scalar.plus_ends (good_of_univ ha) (good_of_univ hb)
  rw [e]
  exact Scalar.simp_fix (good_iff.mp hs).1

theorem Scalar.plus_canon {a b : Scalar S} (ha : a.Canon) (hb : b.Canon) :
    Go.Post (a.plus b) Scalar.Canon := by
  obtain ⟨r, h1, h2⟩ := Scalar.plus_good (good_of_univ ha) (good_of_univ hb)
  intro r' h
  rw [h1, Except.ok.injEq] at h
  exact h ▸ (good_iff.mp h2).1

theorem Scalar.mul_canon {a b : Scalar S} (ha : a.Canon) (hb : b.Canon) :
    Go.Post (a.mul b) Scalar.Canon := by
  obtain ⟨r, h1, h2⟩ := Scalar.mul_good (D3 := Set.univ) prodIn_univ (good_of_univ ha) (good_of_univ hb)
  intro r' h
  rw [h1, Except.ok.injEq] at h
  exact h ▸ (good_iff.mp h2).1

theorem Scalar.asSimplified_canon {a : Scalar S} (ha : a.Canon) :
    Go.Post a.asSimplified Scalar.Canon := by
  obtain ⟨r, h1, h2⟩ := Scalar.asSimplified_good (good_of_univ ha)
  intro r' h
  rw [h1, Except.ok.injEq] at h
  exact h ▸ (good_iff.mp h2).1

/-- Products that are returned simplified: all but those of a `Monomial` with a constant, variable or
monomial. -/
theorem Scalar.mul_fix {a b : Scalar R} (ha : a.Canon) (hb : b.Canon)
    (hn : (a.isMono = true → b.isPoly = true) ∧ (b.isMono = true → a.isK = false)) :
    Go.Post (a.mul b) (fun r => r.asSimplified = .ok r) := by
  have polyK : ∀ (p : Poly R) (c : R), (Scalar.poly p).Canon →
      Go.Post (p.mulK c) (fun r => r.asSimplified = .ok r) := by
    intro p c hp
    refine Go.post_bind' fun _ _ => Scalar.simp_fix (a := .poly _) ?_
    refine ⟨by simpa using hp.ne, fun m hm => ?_⟩
    simp only [List.mem_map] at hm
    obtain ⟨m', hm', rfl⟩ := hm
    exact (Mono.mulK_good (P := fun _ => True) (D := Set.univ)
      (good_of_univ (s := .mono m') (hp.all m' hm')) c).canon
  have polyMono : ∀ (p : Poly R) (m : Mono R), (Scalar.poly p).Canon → m.Canon →
      Go.Post (p.mulMono m) (fun r => r.asSimplified = .ok r) := by
    intro p m hp hm
    refine Go.post_bind' fun _ _ => Go.post_bind' fun _ _ => ?_
    refine Go.Post.bind (P := fun ms => ms ≠ [] ∧ ∀ x ∈ ms, x.Canon) ?_ fun ms hms =>
      Scalar.simp_fix (a := .poly ⟨ms⟩) ⟨hms.1, hms.2⟩
    refine (Go.post_mapM (Q := fun x => x.Canon) fun x hx => ?_).mono fun ms h => ⟨?_, h.2⟩
    · obtain ⟨y, h1, h2⟩ := Mono.mulMono_good (D3 := Set.univ) prodIn_univ (P := fun _ => True)
        (good_of_univ (s := .mono x) (hp.all x hx)) (good_of_univ (s := .mono m) hm)
      intro y' hy'
      rw [h1, Except.ok.injEq] at hy'
      exact hy' ▸ h2.1.canon
    · intro e
      rw [e] at h
      exact hp.ne (List.length_eq_zero_iff.mp h.1.symm)
  have polyVar : ∀ (p : Poly R) (v : Var R), (Scalar.poly p).Canon → v.OK →
      Go.Post (p.mulVar v) (fun r => r.asSimplified = .ok r) := by
    intro p v hp hv
    refine Go.post_bind' fun _ _ => Go.post_bind' fun _ _ => Scalar.simp_fix (a := .poly _) ?_
    refine ⟨by simpa using hp.ne, fun m hm => ?_⟩
    simp only [List.mem_map] at hm
    obtain ⟨m', hm', rfl⟩ := hm
    exact (Mono.mulVar_good (P := fun _ => True) (D3 := Set.univ) prodIn_univ
      (good_of_univ (s := .mono m') (hp.all m' hm')) (good_of_univ (s := .var v) hv)).canon
  have varAny : ∀ (v : Var R) (e : Scalar R), v.OK → e.Canon →
      Go.Post (v.mul e) (fun r => r.asSimplified = .ok r) := by
    intro v e hv he
    refine Go.post_bind' fun _ _ => Go.post_bind' fun _ _ => ?_
    have hg : Good (fun _ => True) Set.univ (Scalar.var v) := good_of_univ hv
    have fin : ∀ x : Go (Scalar R), Go.Post x Scalar.Canon →
        Go.Post (x >>= Scalar.asSimplified) (fun r => r.asSimplified = .ok r) :=
      fun x hx => hx.bind fun _ h => Scalar.simp_fix h
    cases e with
    | k c => exact fin _ (Go.post_pure ((goodM_var (P := fun _ => True) (D := Set.univ) hg.1 hg.2.1 hg.2.2 c).canon))
    | var w =>
      dsimp only
      split
      · rename_i e
        exact fin _ (Go.post_pure (goodM_two prodIn_univ hg (good_of_univ (s := .var w) he) e).canon)
      · rename_i e
        exact fin _ (Go.post_pure (goodM_vw prodIn_univ hg (good_of_univ (s := .var w) he) e).canon)
    | mono m => exact fin _ (Scalar.mul_canon (a := .mono m) (b := .var v) he hv)
    | poly p => exact fin _ (Scalar.mul_canon (a := .poly p) (b := .var v) he hv)
  cases a with
  | k c =>
    show Go.Post (kMul c b) _
    refine Go.post_bind' fun _ _ => ?_
    cases b with
    | k d => exact Go.post_pure rfl
    | var v => exact varAny v (.k c) hb trivial
    | mono m => exact absurd (hn.2 rfl) (by simp [Scalar.isK])
    | poly p => exact polyK p c hb
  | var v => exact varAny v b ha hb
  | mono m =>
    cases b with
    | poly p =>
      show Go.Post (m.mul (.poly p)) _
      exact Go.post_bind' fun _ _ => Go.post_bind' fun _ _ => polyMono p m hb ha
    | k d => exact absurd (hn.1 rfl) (by simp [Scalar.isPoly])
    | var d => exact absurd (hn.1 rfl) (by simp [Scalar.isPoly])
    | mono d => exact absurd (hn.1 rfl) (by simp [Scalar.isPoly])
  | poly p =>
    cases b with
    | k c => exact polyK p c ha
    | var v => exact polyVar p v ha hb
    | mono m => exact polyMono p m ha hb
    | poly q =>
      show Go.Post (p.mulPoly q) _
      refine Go.post_bind' fun _ _ => Go.post_bind' fun _ _ => ?_
      refine Go.Post.bind (P := Scalar.Canon) ?_ fun _ h => Scalar.simp_fix h
      refine Go.post_foldlM (I := Scalar.Canon) trivial fun m hm acc hacc => ?_
      refine Go.Post.bind (P := Scalar.Canon) ?_ fun x hx => Scalar.plus_canon hacc hx
      exact Scalar.mul_canon (a := .poly p) (b := .mono m) ha (hb.all m hm)

/-! ## Arrays -/

section
variable {r c n : ℕ}

theorem concretizeV_nice {l : List (Scalar S)} (h : ∀ x ∈ l, x.Canon) :
    Go.Post (concretizeV l) Expr.Nice := by
  by_cases hl : l = []
  · subst hl
    intro e he
    simp [concretizeV, concretizeVec, Go.throw_eq, Go.err_bind] at he
  · have hp : 0 < l.length := List.length_pos_of_ne_nil hl
    obtain ⟨e, h1, h2, -⟩ := concretizeV_ok' (n := l.length)
      (Q := fun _ => Good (fun _ => True) Set.univ)
      (LArr.of_all rfl fun _ x _ hx => good_of_univ (h x hx)) hp fun _ _ => stable_good
    intro e' he'
    rw [h1, Except.ok.injEq] at he'
    exact he' ▸ nice_of_earr hp (by decide) h2

theorem concretizeM_nice {g : List (List (Scalar S))} (hr : 0 < r) (hc : 0 < c)
    (h : Arr r c (fun _ _ => Scalar.Canon) g) : Go.Post (concretizeM g) Expr.Nice := by
  obtain ⟨e, h1, h2, -⟩ := concretizeM_ok (QQ := fun _ _ => Good (fun _ => True) Set.univ)
    (h.mono fun _ _ x _ _ hx => good_of_univ hx) hr hc fun _ _ _ _ => stable_good
  intro e' he'
  rw [h1, Except.ok.injEq] at he'
  exact he' ▸ nice_of_earr hr hc h2

theorem concretizeMat_nice {g : List (List (Scalar S))} (hr : 0 < r) (hc : 0 < c)
    (h : Arr r c (fun _ _ => Scalar.Canon) g) :
    Go.Post (concretizeMat g) (fun m => (Expr.m m).Nice) := by
  obtain ⟨e, h1, h2⟩ := concretizeMat_ok (QQ := fun _ _ => Good (fun _ => True) Set.univ)
    (h.mono fun _ _ x _ _ hx => good_of_univ hx) hr fun _ _ _ _ => stable_good
  intro e' he'
  rw [h1, Except.ok.injEq] at he'
  exact he' ▸ nice_of_earr hr hc (earr_m_iff.mpr h2)

theorem goGet_mem {α : Type} {l : List α} {i : Int} : Go.Post (goGet l i) (· ∈ l) := by
  unfold goGet
  split
  · exact Go.post_throw
  · split
    · rename_i h
      exact Go.post_pure (List.mem_of_getElem? h)
    · exact Go.post_throw

theorem goGet2_mem {α : Type} {l : List (List α)} {i j : Int} :
    Go.Post (goGet2 l i j) (fun a => ∃ row ∈ l, a ∈ row) :=
  goGet_mem.bind fun row hrow => goGet_mem.mono fun _ ha => ⟨row, hrow, ha⟩

theorem Vec.atVec_mem {b : Vec S} {i : Int} : Go.Post (b.atVec i) (· ∈ b.entries) := by
  cases b with
  | k l => exact Go.post_bind' fun _ _ => goGet_mem.bind fun _ h => Go.post_pure (List.mem_map_of_mem h)
  | v l => exact Go.post_bind' fun _ _ => goGet_mem.bind fun _ h => Go.post_pure (List.mem_map_of_mem h)
  | m l => exact Go.post_bind' fun _ _ => goGet_mem.bind fun _ h => Go.post_pure (List.mem_map_of_mem h)
  | p l =>
    exact Go.post_bind' fun _ _ => Go.post_bind' fun _ _ => Go.post_bind' fun _ _ =>
      goGet_mem.bind fun _ h => Go.post_pure (List.mem_map_of_mem h)

theorem vec_canon {a : Vec S} (h : (Expr.v a).Canon) : ∀ x ∈ a.entries, x.Canon := fun x hx =>
  h [x] (List.mem_map.mpr ⟨x, hx, rfl⟩) x (by simp)

theorem vec_canon_iff {a : Vec S} : (Expr.v a).Canon ↔ ∀ x ∈ a.entries, x.Canon := by
  refine ⟨vec_canon, fun h row hrow x hx => ?_⟩
  obtain ⟨y, hy, rfl⟩ := List.mem_map.mp hrow
  rw [List.mem_singleton] at hx
  exact hx ▸ h y hy

theorem vecPlusTemplate_nice {a : Vec S} {e : Expr S} (ha : (Expr.v a).Canon) (he : e.Canon) :
    Go.Post (vecPlusTemplate a e) Expr.Nice := by
  cases e with
  | s b =>
    have hb : b.Canon := he [b] (by simp [Expr.grid]) b (by simp)
    refine (Go.post_mapM (Q := Scalar.Canon) fun x hx => ?_).bind fun l hl => concretizeV_nice hl.2
    exact Scalar.plus_canon (vec_canon ha x hx) hb
  | v b =>
    refine (Go.post_mapM (Q := Scalar.Canon) fun x hx => ?_).bind fun l hl => concretizeV_nice hl.2
    refine Vec.atVec_mem.bind fun y hy => ?_
    exact Scalar.plus_canon (vec_canon ha _ (List.fst_mem_of_mem_zipIdx hx)) (vec_canon he y hy)
  | m b => exact Go.post_throw

/-- `Plus` of a vector returns something simplification does not change. -/
theorem Vec.plus_fix {a : Vec R} {e : Expr R} (ha : (Expr.v a).Canon) (he : e.Canon) :
    Go.Post (a.plus e) Expr.Fix := by
  unfold Vec.plus
  refine Go.post_bind' fun _ _ => Go.post_bind' fun _ _ => Go.post_bind' fun _ _ =>
    Go.post_bind' fun _ _ => Go.post_bind' fun _ _ => ?_
  exact (vecPlusTemplate_nice ha he).bind fun _ h => h.fix

theorem vecMulTemplate_nice {a : Vec S} {b : Scalar S} (ha : (Expr.v a).Canon) (hb : b.Canon) :
    Go.Post (vecMulTemplate a (.s b)) Expr.Nice := by
  refine (Go.post_mapM (Q := Scalar.Canon) fun x hx => ?_).bind fun l hl => concretizeV_nice hl.2
  exact Scalar.mul_canon (vec_canon ha x hx) hb

theorem Vec.mulScalar_fix {a : Vec R} {b : Scalar R} (ha : (Expr.v a).Canon) (hb : b.Canon) :
    Go.Post (a.mulScalar b) Expr.Fix := by
  unfold Vec.mulScalar
  refine Go.post_bind' fun _ _ => Go.post_bind' fun _ _ => Go.post_bind' fun _ _ =>
    Go.post_bind' fun _ _ => ?_
  dsimp only
  split
  · exact fun _ h => by cases h
  · exact fun _ h => by cases h
  · exact (vecMulTemplate_nice ha hb).bind fun _ h => h.fix

/-- `Multiply` of a vector returns something simplification does not change. -/
theorem Vec.mul_fix {a : Vec R} {e : Expr R} (ha : (Expr.v a).Canon) (he : e.Canon) :
    Go.Post (a.mul e) Expr.Fix := by
  cases e with
  | s b => exact Vec.mulScalar_fix ha (he [b] (by simp [Expr.grid]) b (by simp))
  | v b =>
    have fin : ∀ x : Go (Expr R), Go.Post x Expr.Fix → Go.Post (x >>= Expr.asSimplified) Expr.Fix :=
      fun x hx => hx.bind fun _ h => h.fix
    refine Go.post_bind' fun _ _ => Go.post_bind' fun _ _ => Go.post_bind' fun _ _ =>
      Go.post_bind' fun _ _ => Go.post_bind' fun _ _ => ?_
    dsimp only
    split
    · exact goGet_mem.bind fun c hc => fin _ (Vec.mulScalar_fix ha trivial)
    · exact goGet_mem.bind fun c hc =>
        fin _ (Vec.mulScalar_fix ha (vec_canon he _ (List.mem_map_of_mem hc)))
    · exact Vec.atVec_mem.bind fun y hy => fin _ (Vec.mulScalar_fix ha (vec_canon he y hy))
    · exact goGet_mem.bind fun c hc =>
        fin _ (Vec.mulScalar_fix ha (vec_canon he _ (List.mem_map_of_mem hc)))
    · exact fun _ h => by cases h
  | m b =>
    exact Go.post_bind' fun _ _ => Go.post_bind' fun _ _ => Go.post_bind' fun _ _ =>
      Go.post_bind' fun _ _ => Go.post_bind' fun _ _ => Go.post_throw

theorem Var.mulVec_fix {v : Var R} {b : Vec R} (hv : v.OK) (hb : (Expr.v b).Canon) :
    Go.Post (v.mulVec b) Expr.Fix := by
  refine Go.post_bind' fun _ _ => Go.post_bind' fun _ _ => Go.post_bind' fun _ _ =>
    Go.post_bind' fun _ _ => ?_
  exact (vecMulTemplate_nice (b := .var v) hb hv).bind fun _ h => h.fix

/-! ## Matrices -/

theorem mat_canon {a : Mat S} (h : (Expr.m a).Canon) : ∀ row ∈ a.entries, ∀ x ∈ row, x.Canon := h

theorem Mat.at_canon {a : Mat S} (h : (Expr.m a).Canon) {i j : Int} :
    Go.Post (a.at i j) Scalar.Canon := by
  cases a with
  | k rows => exact Go.post_bind' fun _ _ => Go.post_bind' fun _ _ => Go.post_pure trivial
  | v rows =>
    refine Go.post_bind' fun _ _ => goGet2_mem.bind fun x ⟨row, h1, h2⟩ => Go.post_pure ?_
    exact h _ (List.mem_map_of_mem h1) _ (List.mem_map_of_mem h2)
  | m rows =>
    refine Go.post_bind' fun _ _ => goGet2_mem.bind fun x ⟨row, h1, h2⟩ => Go.post_pure ?_
    exact h _ (List.mem_map_of_mem h1) _ (List.mem_map_of_mem h2)
  | p rows =>
    refine Go.post_bind' fun _ _ => Go.post_bind' fun _ _ => Go.post_bind' fun _ _ =>
      goGet2_mem.bind fun x ⟨row, h1, h2⟩ => Go.post_pure ?_
    exact h _ (List.mem_map_of_mem h1) _ (List.mem_map_of_mem h2)

theorem post_mapM_len {α β : Type} {f : α → Go β} {Q : β → Prop} {l : List α}
    (h : ∀ a ∈ l, Go.Post (f a) Q) : Go.Post (l.mapM f) (LArr l.length (fun _ => Q)) :=
  (Go.post_mapM h).mono fun _ h => LArr.of_all h.1 fun _ x _ hx => h.2 x hx

theorem post_mapRange {β : Type} {F : ℕ → ℕ → Go β} {Q : β → Prop}
    (h : ∀ i j, Go.Post (F i j) Q) :
    Go.Post ((List.range r).mapM fun i => (List.range c).mapM fun j => F i j)
      (Arr r c (fun _ _ => Q)) := by
  refine (post_mapM_len (Q := LArr c (fun _ => Q)) fun i _ => ?_).mono fun g hg => ?_
  · have := post_mapM_len (f := fun j => F i j) (Q := Q) (l := List.range c) fun j _ => h i j
    rwa [List.length_range] at this
  · rwa [List.length_range] at hg

theorem matPlusTemplate_nice {a b : Mat S} (ha : (Expr.m a).Canon) (hb : (Expr.m b).Canon)
    (hs : (Expr.m a).Shape r c) (hr : 0 < r) (hc : 0 < c) :
    Go.Post (matPlusTemplate a b) (fun m => (Expr.m m).Nice) := by
  have hA : MArr r c (fun _ _ => Good (fun _ => True) Set.univ) a :=
    earr_m_iff.mp ((EArr.self hs).mono fun i j x _ _ hx => by
      unfold Expr.entry at hx
      cases h1 : (Expr.m a).grid[i]? with
      | none => rw [h1] at hx; simp at hx
      | some row =>
        rw [h1] at hx
        exact good_of_univ (ha row (List.mem_of_getElem? h1) x (List.mem_of_getElem? hx)))
  unfold matPlusTemplate
  rw [hA.check hr (fun _ _ _ h => h.check), hA.dims hr (fun _ _ _ h => h.check), Go.ok_bind]
  refine Go.post_bind' fun _ _ => ?_
  rw [Go.ok_bind]
  refine Go.post_bind' fun db _ => ?_
  dsimp only
  split
  · exact fun _ h => by cases h
  · refine Go.Post.bind (post_mapRange (Q := Scalar.Canon) fun i j => ?_) fun g hg =>
      concretizeMat_nice hr hc hg
    exact (Mat.at_canon ha).bind fun x hx => (Mat.at_canon hb).bind fun y hy =>
      Scalar.plus_canon hx hy

theorem simp_m_fix {m : Mat R} (h : (Expr.m m).Nice) :
    Go.Post m.asSimplified (fun m' => (Expr.m m').Fix) := by
  intro m' hm'
  exact h.fix (.m m') (by simp [Expr.asSimplified, hm', Go.ok_bind, Go.pure_eq])

theorem kmPlus_mat_fix {rows : List (List R)} {b : Mat R} (hb : (Expr.m b).Canon)
    (hs : (Expr.m (.k rows)).Shape r c) (hr : 0 < r) (hc : 0 < c) :
    Go.Post (kmPlus rows (.m b)) Expr.Fix := by
  refine Go.post_bind' fun _ _ => Go.post_bind' fun _ _ => Go.post_bind' fun _ _ =>
    Go.post_bind' fun _ _ => ?_
  refine (matPlusTemplate_nice (a := .k rows) ?_ hb hs hr hc).bind fun m hm => ?_
  · intro row hrow x hx
    obtain ⟨l, -, rfl⟩ := List.mem_map.mp hrow
    obtain ⟨y, -, rfl⟩ := List.mem_map.mp hx
    trivial
  · exact (simp_m_fix hm).bind fun m' hm' => Go.post_pure hm'

theorem grid_arr {α : Type} {rows : List (List α)} {f : α → Scalar S}
    (hl : rows.length = r) (h : ∀ row ∈ rows.map (·.map f), row.length = c) :
    Arr r c (fun _ _ x => ∃ row ∈ rows, x ∈ row) rows := by
  refine LArr.of_all hl fun i row _ hrow => LArr.of_all ?_ fun j x _ hx => ⟨row, hrow, hx⟩
  simpa using h _ (List.mem_map_of_mem hrow)

theorem post_mapM2 {α β : Type} {f : α → Go β} {P : α → Prop} {Q : β → Prop} {g : List (List α)}
    (hg : Arr r c (fun _ _ => P) g) (h : ∀ a, P a → Go.Post (f a) Q) :
    Go.Post (g.mapM (·.mapM f)) (Arr r c (fun _ _ => Q)) := by
  refine (Go.post_mapM (Q := LArr c (fun _ => Q)) fun row hrow => ?_).mono fun g' hg' => ?_
  · have hl := hg.rowLen hrow
    rw [← hl]
    refine post_mapM_len fun a ha => h a ?_
    obtain ⟨i, j, -, -, hp⟩ := hg.mem hrow ha
    exact hp
  · exact LArr.of_all (hg'.1.trans hg.1) fun _ x _ hx => hg'.2 x hx

theorem pmPlus_k_fix {rows : List (List (Poly R))} {d : R} (ha : (Expr.m (.p rows)).Canon)
    (hs : (Expr.m (.p rows)).Shape r c) (hr : 0 < r) (hc : 0 < c) :
    Go.Post (pmPlus rows (.s (.k d))) Expr.Fix := by
  refine Go.post_bind' fun _ _ => Go.post_bind' fun _ _ => Go.post_bind' fun _ _ =>
    Go.post_bind' fun _ _ => Go.post_bind' fun _ _ => ?_
  have hA := grid_arr (f := Scalar.poly) (by simpa [Expr.grid, Mat.entries] using hs.1) hs.2
  refine Go.Post.bind (post_mapM2 (Q := Scalar.Canon) hA fun p ⟨row, h1, h2⟩ => ?_) fun g hg =>
    (concretizeM_nice hr hc hg).bind fun _ h => h.fix
  exact Scalar.plus_canon (a := .poly p) (b := .k d)
    (ha _ (List.mem_map_of_mem h1) _ (List.mem_map_of_mem h2)) trivial

theorem pmMul_k_fix {rows : List (List (Poly R))} {d : R} (ha : (Expr.m (.p rows)).Canon)
    (hs : (Expr.m (.p rows)).Shape r c) (hr : 0 < r) (hc : 0 < c) :
    Go.Post (pmMul rows (.s (.k d))) Expr.Fix := by
  refine Go.post_bind' fun _ _ => Go.post_bind' fun _ _ => Go.post_bind' fun _ _ =>
    Go.post_bind' fun _ _ => Go.post_bind' fun _ _ => ?_
  have hA := grid_arr (f := Scalar.poly) (by simpa [Expr.grid, Mat.entries] using hs.1) hs.2
  refine Go.Post.bind (post_mapM2 (Q := Scalar.Canon) hA fun p ⟨row, h1, h2⟩ => ?_) fun g hg =>
    (concretizeM_nice hr hc hg).bind fun _ h => h.fix
  exact Scalar.mul_canon (a := .poly p) (b := .k d)
    (ha _ (List.mem_map_of_mem h1) _ (List.mem_map_of_mem h2)) trivial

theorem vmMul_k_fix {rows : List (List (Var R))} {d : R} (ha : (Expr.m (.v rows)).Canon)
    (hs : (Expr.m (.v rows)).Shape r c) (hr : 0 < r) (hc : 0 < c) :
    Go.Post (vmMul rows (.s (.k d))) Expr.Fix := by
  refine Go.post_bind' fun _ _ => Go.post_bind' fun _ _ => Go.post_bind' fun _ _ =>
    Go.post_bind' fun _ _ => Go.post_bind' fun _ _ => ?_
  have hA := grid_arr (f := Scalar.var) (by simpa [Expr.grid, Mat.entries] using hs.1) hs.2
  refine Go.Post.bind (post_mapM2 (Q := fun m => (Scalar.mono m).Canon) hA fun v ⟨row, h1, h2⟩ => ?_)
    fun g hg => Expr.Nice.fix ?_
  · refine Go.Post.bind (Scalar.mul_canon (a := .var v) (b := .k d)
      (ha _ (List.mem_map_of_mem h1) _ (List.mem_map_of_mem h2)) trivial) fun s hs => ?_
    cases s with
    | mono m => exact Go.post_pure hs
    | k _ => exact Go.post_throw
    | var _ => exact Go.post_throw
    | poly _ => exact Go.post_throw
  · exact nice_of_earr hr hc (earr_m_iff.mpr (Arr.map_iff.mpr (hg.mono fun _ _ m _ _ hm =>
      good_of_univ hm)))

theorem mulEntry_canon {a b : Mat S} (ha : (Expr.m a).Canon) (hb : (Expr.m b).Canon) {n i j : ℕ} :
    Go.Post (mulEntry a b n i j) Scalar.Canon := by
  refine Go.Post.bind (P := Scalar.Canon) ?_ fun _ h => Scalar.asSimplified_canon h
  refine Go.post_foldlM (I := Scalar.Canon) trivial fun k _ acc hacc => ?_
  exact (Mat.at_canon ha).bind fun x hx => (Mat.at_canon hb).bind fun y hy =>
    (Scalar.mul_canon hx hy).bind fun z hz => Scalar.plus_canon hacc hz

theorem mat_good {a : Mat S} (ha : (Expr.m a).Canon) (hs : (Expr.m a).Shape r c) :
    MArr r c (fun _ _ => Good (fun _ => True) Set.univ) a :=
  earr_m_iff.mp ((EArr.self hs).mono fun i j x _ _ hx => by
    unfold Expr.entry at hx
    cases h1 : (Expr.m a).grid[i]? with
    | none => rw [h1] at hx; simp at hx
    | some row =>
      rw [h1] at hx
      exact good_of_univ (ha row (List.mem_of_getElem? h1) x (List.mem_of_getElem? hx)))

theorem matMulTemplate_nice {a b : Mat S} {n s : ℕ} (ha : (Expr.m a).Canon) (hb : (Expr.m b).Canon)
    (hsa : (Expr.m a).Shape r n) (hr : 0 < r) (hsb : (Expr.m b).Shape s c) (hs0 : 0 < s)
    (hc : 0 < c) : Go.Post (matMulTemplate a b) Expr.Nice := by
  have hA := mat_good ha hsa
  have hB := mat_good hb hsb
  unfold matMulTemplate
  rw [hA.check hr (fun _ _ _ h => h.check), hA.dims hr (fun _ _ _ h => h.check), Go.ok_bind,
    hB.check hs0 (fun _ _ _ h => h.check), hB.dims hs0 (fun _ _ _ h => h.check), Go.ok_bind,
    Go.ok_bind, Go.ok_bind]
  dsimp only
  split
  · exact fun _ h => by cases h
  · exact Go.Post.bind (post_mapRange (Q := Scalar.Canon) fun i j => mulEntry_canon ha hb)
      fun g hg => concretizeM_nice hr hc hg

theorem vmMul_mat_fix {rows : List (List (Var R))} {b : Mat R} {n s : ℕ}
    (ha : (Expr.m (.v rows)).Canon) (hb : (Expr.m b).Canon)
    (hsa : (Expr.m (.v rows)).Shape r n) (hr : 0 < r) (hsb : (Expr.m b).Shape s c) (hs0 : 0 < s)
    (hc : 0 < c) : Go.Post (vmMul rows (.m b)) Expr.Fix := by
  refine Go.post_bind' fun _ _ => Go.post_bind' fun _ _ => Go.post_bind' fun _ _ =>
    Go.post_bind' fun _ _ => Go.post_bind' fun _ _ => ?_
  exact (matMulTemplate_nice ha hb hsa hr hsb hs0 hc).bind fun _ h => h.fix

theorem vmMul_kvec_fix {rows : List (List (Var R))} {l : List R} (ha : (Expr.m (.v rows)).Canon) :
    Go.Post (vmMul rows (.v (.k l))) Expr.Fix := by
  refine Go.post_bind' fun _ _ => Go.post_bind' fun _ _ => Go.post_bind' fun _ _ =>
    Go.post_bind' fun _ _ => Go.post_bind' fun _ _ => ?_
  refine Go.Post.bind (Go.post_mapM (Q := Scalar.Canon) fun row hrow => ?_) fun l hl =>
    (concretizeV_nice hl.2).bind fun _ h => h.fix
  refine Go.post_foldlM (I := Scalar.Canon) trivial fun xk hx acc hacc => ?_
  refine Go.post_bind' fun d _ => Go.Post.bind (Scalar.mul_canon (a := .var xk.1) (b := .k d) ?_ trivial)
    fun z hz => Scalar.plus_canon hacc hz
  exact ha _ (List.mem_map_of_mem hrow) _ (List.mem_map_of_mem (List.fst_mem_of_mem_zipIdx hx))

end

end Verif
