import Verif.Lemmas.FormsMul

/-!
# What a product is, whatever the operands

The terms of a product are the products of a term of the first and a term of the second operand, merged by
`Simplify`. Nothing is assumed about the operands beyond being well formed.
-/

set_option linter.unusedSectionVars false

namespace Verif

variable {R : Type} [Field R] [LinearOrder R] {M : Type} [AddCommGroup M] [Module R M] {μ : Writing → M}

/-- The meaning of all products of a term of `l` and a term of `l'`. -/
def pairs (μ : Writing → M) (l l' : List (Mono R)) : M :=
  (l.map fun m => (l'.map fun m' => (m.coeff * m'.coeff) • μ (m.writing.mul m'.writing)).sum).sum

theorem pairs_nil (l : List (Mono R)) : pairs μ l [] = 0 := by
  simp [pairs]

theorem pairs_one (l : List (Mono R)) (r : Mono R) :
    pairs μ l [r] = (l.map fun m => (m.coeff * r.coeff) • μ (m.writing.mul r.writing)).sum := by
  simp [pairs]

theorem pairs_append (l l1 l2 : List (Mono R)) : pairs μ l (l1 ++ l2) = pairs μ l l1 + pairs μ l l2 := by
  unfold pairs
  induction l with
  | nil => simp
  | cons a l ih =>
    simp only [List.map_cons, List.sum_cons]
    rw [ih]
    simp only [List.map_append, List.sum_append]
    abel

theorem pairs_const_left (c : R) {l : List (Mono R)} (h : ∀ m ∈ l, m.Canon) :
    pairs μ [kToMono c] l = c • llin μ l := by
  unfold pairs
  simp only [List.map_cons, List.map_nil, List.sum_cons, List.sum_nil, add_zero]
  induction l with
  | nil => simp [llin_nil]
  | cons a l ih =>
    have ca := h a (List.mem_cons_self ..)
    rw [List.map_cons, List.sum_cons, ih fun m hm => h m (List.mem_cons_of_mem _ hm), llin_cons, smul_add, smul_smul]
    congr 2
    rw [show (kToMono c).writing = ([], []) from rfl, (Writing.nil_mul ca.lenW ca.nodup).1]

theorem pairs_const_right (c : R) {l : List (Mono R)} (h : ∀ m ∈ l, m.Canon) :
    pairs μ l [kToMono c] = c • llin μ l := by
  rw [pairs_one]
  induction l with
  | nil => simp [llin_nil]
  | cons a l ih =>
    have ca := h a (List.mem_cons_self ..)
    rw [List.map_cons, List.sum_cons, ih fun m hm => h m (List.mem_cons_of_mem _ hm), llin_cons, smul_add, smul_smul,
      mul_comm c]
    congr 2
    rw [show (kToMono c).writing = ([], []) from rfl, (Writing.nil_mul ca.lenW ca.nodup).2]

theorem llin_forall₂ {F : Mono R → M} {l l' : List (Mono R)}
    (h : List.Forall₂ (fun m p => p.coeff • μ p.writing = F m) l l') : llin μ l' = (l.map F).sum := by
  induction h with
  | nil => rfl
  | cons h _ ih => rw [llin_cons, List.map_cons, List.sum_cons, h, ih]

theorem goodW_univ {l : List (Mono R)} (h : ∀ m ∈ l, m.Canon) : GoodW Set.univ l :=
  fun m hm => ⟨h m hm, fun _ => Set.mem_univ _⟩

/-- The meaning is `f`, and the expression is well formed. -/
abbrev Means (μ : Writing → M) (f : M) (s : Scalar R) : Prop := SemW Set.univ μ f s

theorem means_of {s : Scalar R} (h : s.Canon) : Means μ (s.lin μ) s := ⟨h, fun _ _ _ => Set.mem_univ _, rfl⟩

theorem Means.goodL {f : M} {s : Scalar R} (h : Means μ f s) : ∀ m ∈ s.terms, m.Canon :=
  Scalar.terms_canon h.canon

variable (hμ : Respects Set.univ μ)
include hμ

theorem Poly.mulVar_pairs {p : Poly R} (hp : (Scalar.poly p).Canon) {v : Var R} (hv : v.OK) :
    Go.Ok (p.mulVar v) (Means μ (pairs μ p.monos [v.toMono])) := by
  have g := goodW_univ (Scalar.terms_canon hp)
  unfold Poly.mulVar
  rw [GoodL.check hp.1 g.univ, hv.check, Go.ok_bind, Go.ok_bind]
  have e : llin μ (p.monos.map fun m => m.mulVar v) = pairs μ p.monos [v.toMono] := by
    rw [pairs_one]
    refine llin_forall₂ (F := fun m => (m.coeff * v.toMono.coeff) • μ (m.writing.mul v.toMono.writing)) ?_
    rw [List.forall₂_map_right_iff, List.forall₂_same]
    intro m hm
    have cm := hp.2 m hm
    rw [Mono.mulVar_writing cm hv, (Mono.mulVar_spec cm hv).2.2.1, show v.toMono.coeff = (1 : R) from rfl, mul_one]
  rw [← e]
  refine Poly.asSimplified_sem (p := ⟨_⟩) hμ (by simpa using hp.1) (goodW_univ ?_)
  intro m hm
  obtain ⟨x, hx, rfl⟩ := List.mem_map.mp hm
  exact (Mono.mulVar_spec (hp.2 x hx) hv).1

theorem Poly.mulMono_pairs {p : Poly R} (hp : (Scalar.poly p).Canon) {r : Mono R} (hr : r.Canon) :
    Go.Ok (p.mulMono r) (Means μ (pairs μ p.monos [r])) := by
  have g := goodW_univ (Scalar.terms_canon hp)
  unfold Poly.mulMono
  rw [GoodL.check hp.1 g.univ, hr.check, Go.ok_bind, Go.ok_bind]
  refine (Go.mapM_ok _ (fun m p => p.Canon ∧
    p.coeff • μ p.writing = (m.coeff * r.coeff) • μ (m.writing.mul r.writing)) p.monos
    (fun m hm => (Mono.mulMono_writing (hp.2 m hm) hr).mono fun q ⟨h1, h2, _, h4⟩ => ⟨h1, by rw [h2, h4]; rfl⟩)).bind ?_
  intro ms hms
  rw [pairs_one, ← llin_forall₂ (F := fun m => (m.coeff * r.coeff) • μ (m.writing.mul r.writing))
    (hms.imp (fun _ _ hh => hh.2))]
  exact Poly.asSimplified_sem (p := ⟨ms⟩) hμ (forall₂_ne hms hp.1)
    (forall₂_goodW hms fun _ _ h => ⟨h.1, fun _ => Set.mem_univ _⟩)

theorem Poly.mulPoly_pairs {p q : Poly R} (hp : (Scalar.poly p).Canon) (hq : (Scalar.poly q).Canon) :
    Go.Ok (p.mulPoly q) (Means μ (pairs μ p.monos q.monos)) := by
  have g := goodW_univ (Scalar.terms_canon hp)
  have g' := goodW_univ (Scalar.terms_canon hq)
  unfold Poly.mulPoly
  rw [GoodL.check hp.1 g.univ, GoodL.check hq.1 g'.univ, Go.ok_bind, Go.ok_bind]
  refine (Go.foldlM_ok' _ (fun pre s => Means μ (pairs μ p.monos pre) s) _ (Scalar.k GoNum.zero)
    ?_ ?_).bind (fun _ h => Scalar.asSimplified_sem hμ h)
  · rw [pairs_nil]
    have := semW_k (W := Set.univ) (μ := μ) (0 : R)
    rwa [zero_smul] at this
  rintro pre r acc ⟨post, hpost⟩ hacc
  have hr : r ∈ q.monos := by rw [hpost]; simp
  refine (Poly.mulMono_pairs hμ hp (hq.2 r hr)).bind (fun s hs => ?_)
  refine (Scalar.plus_sem hμ hacc hs).mono (fun t ht => ?_)
  rw [pairs_append]
  exact ht

omit hμ in
theorem means_mono {m : Mono R} (h : m.Canon) {f : M} (e : m.coeff • μ m.writing = f) : Means μ f (.mono m) := by
  have := means_of (μ := μ) (s := .mono m) h
  rwa [show (Scalar.mono m).lin μ = m.coeff • μ m.writing by
    show llin μ [m] = _
    rw [llin_cons, llin_nil, add_zero], e] at this

omit hμ in
theorem pairs_two (m r : Mono R) : pairs μ [m] [r] = (m.coeff * r.coeff) • μ (m.writing.mul r.writing) := by
  simp [pairs]

theorem Mono.mul_pairs {m : Mono R} (hm : m.Canon) {e : Scalar R} (he : e.Canon) :
    Go.Ok (m.mul e) (fun r => ((Scalar.mono m).Swaps e → Means μ (pairs μ e.terms [m]) r) ∧
      (¬ (Scalar.mono m).Swaps e → Means μ (pairs μ [m] e.terms) r)) := by
  unfold Mono.mul
  rw [hm.check, (good_of_univ he).check, Go.ok_bind, Go.ok_bind]
  cases e with
  | k c =>
    refine Go.ok_pure ⟨fun h => h.elim, fun _ => ?_⟩
    show Means μ (pairs μ [m] [kToMono c]) _
    rw [pairs_const_right c (by intro x hx; rw [List.mem_singleton.mp hx]; exact hm), llin_cons, llin_nil, add_zero,
      smul_smul]
    refine means_mono (m := m.mulK c) (⟨hm.len, hm.pos, hm.nodup, hm.ok⟩) ?_
    show (m.coeff * c) • μ m.writing = _
    rw [mul_comm]
  | var v =>
    have ov : v.OK := he
    refine Go.ok_pure ⟨fun h => h.elim, fun _ => ?_⟩
    show Means μ (pairs μ [m] [v.toMono]) _
    rw [pairs_two]
    refine means_mono (Mono.mulVar_spec hm ov).1 ?_
    rw [Mono.mulVar_writing hm ov, (Mono.mulVar_spec hm ov).2.2.1, show v.toMono.coeff = (1 : R) from rfl, mul_one]
  | mono r =>
    refine (Mono.mulMono_writing hm he).bind fun p ⟨h1, h2, h3, h4⟩ => Go.ok_pure ⟨fun h => h.elim, fun _ => ?_⟩
    show Means μ (pairs μ [m] [r]) _
    rw [pairs_two]
    exact means_mono h1 (by rw [h2, h4]; rfl)
  | poly p => exact (Poly.mulMono_pairs hμ he hm).mono fun r h => ⟨fun _ => h, fun h' => (h' trivial).elim⟩

theorem Var.mul_pairs {v : Var R} (ov : v.OK) {e : Scalar R} (he : e.Canon) :
    Go.Ok (v.mul e) (fun r => ((Scalar.var v).Swaps e → Means μ (pairs μ e.terms [v.toMono]) r) ∧
      (¬ (Scalar.var v).Swaps e → Means μ (pairs μ [v.toMono] e.terms) r)) := by
  have cv : v.toMono.Canon := Scalar.terms_canon (s := .var v) ov _ (List.mem_singleton.mpr rfl)
  cases e with
  | k c =>
    refine ((Scalar.mul_k_sem hμ (means_of (μ := μ) (s := .var v) ov) c).1).mono fun r h => ⟨fun h => h.elim, fun _ => ?_⟩
    show Means μ (pairs μ [v.toMono] [kToMono c]) _
    rw [pairs_const_right c (l := [v.toMono]) (Scalar.terms_canon (s := .var v) ov)]
    exact h
  | var w =>
    have ow : w.OK := he
    unfold Var.mul
    rw [ov.check, (good_of_univ he).check, Go.ok_bind, Go.ok_bind]
    simp only [Go.pure_eq, Go.ok_bind]
    have gv' : Good (fun _ => True) Set.univ (.var v) := good_of_univ ov
    have gw' : Good (fun _ => True) Set.univ (.var w) := good_of_univ ow
    have key : ∀ m : Mono R, m.Canon → m.coeff = 1 → m.writing = v.toMono.writing.mul w.toMono.writing →
        Go.Ok (Scalar.mono m).asSimplified (fun r =>
          ((Scalar.var v).Swaps (.var w) → Means μ (pairs μ (Scalar.var w).terms [v.toMono]) r) ∧
          (¬ (Scalar.var v).Swaps (.var w) → Means μ (pairs μ [v.toMono] (Scalar.var w).terms) r)) := by
      intro m cm c1 hw
      refine (Scalar.asSimplified_sem (s := .mono m) hμ (means_mono (f := pairs μ [v.toMono] [w.toMono]) cm ?_)).mono
        fun r h => ⟨fun h => h.elim, fun _ => h⟩
      rw [pairs_two, hw, c1]
      show _ = ((1 : R) * 1) • _
      rw [mul_one]
    split
    · rename_i e
      refine key _ (goodM_two (R := R) prodIn_univ gv' gw' e).canon rfl ?_
      simp [Mono.writing, Writing.mul, Var.toMono, Writing.exp, e]
    · rename_i e
      refine key _ (goodM_vw (R := R) prodIn_univ gv' gw' e).canon rfl ?_
      have e' : ¬ v.id = w.id := fun x => e x.symm
      simp [Mono.writing, Writing.mul, Var.toMono, Writing.exp, e, e']
  | mono m =>
    unfold Var.mul
    rw [ov.check, (good_of_univ he).check, Go.ok_bind, Go.ok_bind]
    refine (Mono.mul_pairs hμ (show m.Canon from he) (e := .var v) ov).bind (fun _ h => ?_)
    exact (Scalar.asSimplified_sem hμ (h.2 fun h => h.elim)).mono fun r h => ⟨fun _ => h, fun h' => (h' trivial).elim⟩
  | poly p =>
    unfold Var.mul
    rw [ov.check, (good_of_univ he).check, Go.ok_bind, Go.ok_bind]
    refine (Poly.mulVar_pairs hμ he ov).bind (fun _ h => ?_)
    exact (Scalar.asSimplified_sem hμ h).mono fun r h => ⟨fun _ => h, fun h' => (h' trivial).elim⟩

theorem Poly.mul_pairs {p : Poly R} (hp : (Scalar.poly p).Canon) {e : Scalar R} (he : e.Canon) :
    Go.Ok (p.mul e) (Means μ (pairs μ p.monos e.terms)) := by
  cases e with
  | k c =>
    have := Poly.mulK_sem hμ hp.1 (goodW_univ (Scalar.terms_canon hp)) c
    show Go.Ok _ (Means μ (pairs μ p.monos [kToMono c]))
    rw [pairs_const_right c (l := p.monos) (Scalar.terms_canon hp)]
    exact this
  | var v => exact Poly.mulVar_pairs hμ hp he
  | mono m => exact Poly.mulMono_pairs hμ hp he
  | poly q => exact Poly.mulPoly_pairs hμ hp he

/-- `Multiply`: all products of a term of the first and a term of the second operand, in the order in which the code
takes the operands. -/
theorem Scalar.mul_pairs {a b : Scalar R} (ha : a.Canon) (hb : b.Canon) :
    Go.Ok (a.mul b) (fun r => (a.Swaps b → Means μ (pairs μ b.terms a.terms) r) ∧
      (¬ a.Swaps b → Means μ (pairs μ a.terms b.terms) r)) := by
  cases a with
  | k c =>
    refine ((Scalar.mul_k_sem hμ (means_of (μ := μ) hb) c).2).mono fun r h => ⟨fun h => h.elim, fun _ => ?_⟩
    show Means μ (pairs μ [kToMono c] b.terms) _
    rw [pairs_const_left c (Scalar.terms_canon hb)]
    exact h
  | var v => exact Var.mul_pairs hμ ha hb
  | mono m => exact Mono.mul_pairs hμ ha hb
  | poly p => exact (Poly.mul_pairs hμ ha hb).mono fun r h => ⟨fun h => h.elim, fun _ => h⟩

end Verif
