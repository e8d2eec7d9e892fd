import Verif.Lemmas.HomArray

/-!
# Maps between number types: products, powers, substitution and derivatives of vectors and matrices
-/

namespace Verif

set_option linter.unusedSimpArgs false

variable {R S : Type}

section lists
variable {α β γ δ : Type}

/-- Two runs that agree up to the maps step by step. -/
theorem go_bind {x' : Go γ} {x : Go α} {k' : γ → Go δ} {k : α → Go β} {b : β → δ} (a : α → γ)
    (hx : x' = a <$> x) (hk : ∀ v, k' (a v) = b <$> k v) : (x' >>= k') = b <$> (x >>= k) := by
  rw [hx, bind_map_left, map_bind]
  congr 1; funext v
  exact hk v

/-- The first step has the same result in both runs. -/
theorem go_bind0 {x' x : Go α} {k' : α → Go δ} {k : α → Go β} {b : β → δ}
    (hx : x' = x) (hk : ∀ v, k' v = b <$> k v) : (x' >>= k') = b <$> (x >>= k) := by
  rw [hx, map_bind]
  congr 1; funext v
  exact hk v

theorem go_foldIdx {F : β → α × Nat → Go β} {G : δ → γ × Nat → Go δ} {a : α → γ} {b : β → δ}
    (h : ∀ s x i, G (b s) (a x, i) = b <$> F s (x, i)) (l : List α) (s : β) (s' : δ) (hs : s' = b s) (n : Nat) :
    ((l.map a).zipIdx.drop n).foldlM G s' = b <$> (l.zipIdx.drop n).foldlM F s := by
  rw [zipIdx_hom, ← List.map_drop, hs]
  exact go_foldlM (fun s x => h s x.1 x.2) _ s

theorem go_foldIdx0 {F : β → α × Nat → Go β} {G : δ → γ × Nat → Go δ} {a : α → γ} {b : β → δ}
    (h : ∀ s x i, G (b s) (a x, i) = b <$> F s (x, i)) (l : List α) (s : β) (s' : δ) (hs : s' = b s) :
    (l.map a).zipIdx.foldlM G s' = b <$> l.zipIdx.foldlM F s := by
  simpa using go_foldIdx h l s s' hs 0

theorem go_col (g : α → β) (rows : List (List α)) (j : Int) :
    (rows.map (List.map g)).mapM (fun row => goGet row j) = List.map g <$> rows.mapM (fun row => goGet row j) :=
  go_mapM (F := fun row => goGet row j) (G := fun row => goGet row j) (fun row => goGet_hom g row j) rows

theorem go_foldRange {F : β → Nat → Go β} {G : δ → Nat → Go δ} {b : β → δ}
    (h : ∀ s x, G (b s) x = b <$> F s x) (l : List Nat) (s : β) (s' : δ) (hs : s' = b s) :
    l.foldlM G s' = b <$> l.foldlM F s := by
  rw [hs]
  exact go_foldlM' h l s

end lists

namespace NumHom

variable [GoNum R] [GoNum S] (h : NumHom R S)

/-! ## Multiply of matrices -/

theorem mulEntry (a b : Mat R) (n i j : Nat) :
    Verif.mulEntry (a.mapNum h.f) (b.mapNum h.f) n i j = Scalar.mapNum h.f <$> Verif.mulEntry a b n i j := by
  refine go_bind (Scalar.mapNum h.f) (go_foldRange (fun s k => ?_) _ _ _ ?_) (fun s => h.asSimplified s)
  · exact go_bind _ (h.mat_at _ _ _) fun x => go_bind _ (h.mat_at _ _ _) fun y =>
      go_bind _ (h.smul _ _) fun z => h.plus _ _
  · rw [Scalar.mapNum_k, h.zero]

theorem matMulTemplate (a b : Mat R) :
    Verif.matMulTemplate (a.mapNum h.f) (b.mapNum h.f) = Expr.mapNum h.f <$> Verif.matMulTemplate a b := by
  refine go_bind0 (h.mat_check _) fun _ => go_bind0 (h.mat_check _) fun _ => go_bind0 (h.mat_dims _) fun da =>
    go_bind0 (h.mat_dims _) fun db => ?_
  by_cases hd : da.2 ≠ db.1
  · simp [hd]; rfl
  · simp only [hd, if_false]
    exact go_bind _ (go_range (fun i j => h.mulEntry a b _ i j) _ _) fun rows => h.concretizeM _

theorem mulVec (v : Var R) (b : Vec R) :
    (v.mapNum h.f).mulVec (b.mapNum h.f) = Expr.mapNum h.f <$> v.mulVec b :=
  go_bind0 (h.var_check _) fun _ => go_bind0 (h.vec_check _) fun _ => go_bind0 (h.vec_dims _) fun _ =>
    go_bind0 rfl fun _ => go_bind _ (h.vecMulTemplate b (.s (.var v))) fun _ => h.expr_asSimplified _

theorem mulVecDense (v : Var R) (l : List R) :
    (v.mapNum h.f).mulVecDense (l.map h.f) = Expr.mapNum h.f <$> v.mulVecDense l :=
  go_bind _ (h.mulVec v (.k l)) fun _ => go_bind _ (h.expr_asSimplified _) fun _ => h.expr_asSimplified _

theorem kmMul (rows : List (List R)) (e : Expr R) :
    Verif.kmMul (rows.map (List.map h.f)) (e.mapNum h.f) = Expr.mapNum h.f <$> Verif.kmMul rows e := by
  rw [Verif.kmMul.eq_def, Verif.kmMul.eq_def]
  refine go_bind0 (h.expr_check _) fun _ => go_bind0 (rowDims_hom _ _) fun d => go_bind0 (h.expr_dims _) fun _ =>
    go_bind0 rfl fun _ => ?_
  rcases e with (c | v | m | q) | (l | l | l | l) | b
  · refine go_bind _ (h.kToDense rows) fun ks => ?_
    simp [h.mul, Function.comp_def]
  · rfl
  · rfl
  · refine go_bind _ (go_range (fun i j => ?_) _ _) fun _ => go_bind _ (h.concretizeM _) fun _ =>
      h.expr_asSimplified _
    refine go_bind _ (goGet2_hom _ _ _ _) fun x => ?_
    rw [h.kToPoly]
    exact h.poly_mul _ (.poly q)
  · rfl
  · by_cases hd : d.1 = 1
    · simp only [hd, if_true, Expr.mapNum_v, Vec.mapNum_v]
      refine go_bind (Scalar.mapNum h.f) (go_foldIdx0 (fun s x i => ?_) _ _ _ ?_) fun _ =>
        go_bind _ (h.asSimplified _) fun _ => rfl
      · exact go_bind _ (goGet2_hom _ _ _ _) fun y => go_bind _ (h.var_mul _ (.k y)) fun _ => h.plus _ _
      · rw [Scalar.mapNum_k, h.zero]
    · simp only [hd, if_false, Expr.mapNum_v, Vec.mapNum_v]
      refine go_bind (Expr.mapNum h.f) (go_foldRange (fun s j => ?_) _ _ _ ?_) fun _ => h.expr_asSimplified _
      · exact go_bind _ (h.kToDense rows) fun ks => go_bind _ (go_col _ _ _) fun col =>
          go_bind _ (goGet_hom _ _ _) fun v => go_bind _ (h.mulVecDense _ _) fun _ => h.expr_plus _ _
      · simp [h.zero]
  · rfl
  · rfl
  · exact go_bind _ (h.matMulTemplate (.k rows) b) fun _ => h.expr_asSimplified _

theorem vmMul (rows : List (List (Var R))) (e : Expr R) :
    Verif.vmMul (rows.map (List.map (Var.mapNum h.f))) (e.mapNum h.f) = Expr.mapNum h.f <$> Verif.vmMul rows e := by
  rw [Verif.vmMul.eq_def, Verif.vmMul.eq_def]
  refine go_bind0 (h.mat_check (.v rows)) fun _ => go_bind0 (h.expr_check _) fun _ =>
    go_bind0 (rowDims_hom _ _) fun d => go_bind0 (h.expr_dims _) fun _ => go_bind0 rfl fun _ => ?_
  rcases e with (c | v | m | q) | (l | l | l | l) | b <;> try rfl
  · refine go_bind (List.map (List.map (Mono.mapNum h.f))) (go_mapM2 (fun v => ?_) _) fun ms =>
      h.expr_asSimplified (.m (.m ms))
    refine go_bind _ (h.var_mul v (.k c)) fun s => ?_
    cases s <;> rfl
  · refine go_bind (List.map (Scalar.mapNum h.f)) (go_mapM (fun row => ?_) _)
      fun _ => go_bind _ (h.concretizeV _) fun _ => h.expr_asSimplified _
    refine go_foldIdx0 (fun s x i => ?_) _ _ _ ?_
    · exact go_bind _ (goGet_hom _ _ _) fun y => go_bind _ (h.var_mul _ (.k y)) fun _ => h.plus _ _
    · rw [Scalar.mapNum_k, h.zero]
  · refine go_bind (Expr.mapNum h.f) (go_foldRange (fun s j => ?_) _ _ _ ?_) fun _ => h.expr_asSimplified _
    · exact go_bind _ (go_col _ _ _) fun col => go_bind _ (goGet_hom _ _ _) fun v =>
        go_bind _ (h.vec_mul (.v col) (.s (.var v))) fun _ => h.expr_plus _ _
    · simp [h.zero]
  · exact go_bind _ (h.matMulTemplate (.v rows) b) fun _ => h.expr_asSimplified _

theorem mmRowMul (row : List (Mono R)) (l : List (Var R)) :
    Verif.mmRowMul (row.map (Mono.mapNum h.f)) (l.map (Var.mapNum h.f)) =
      Scalar.mapNum h.f <$> Verif.mmRowMul row l := by
  refine go_bind _ (goGet_hom _ _ _) fun m0 => go_bind _ (goGet_hom _ _ _) fun v0 => ?_
  refine go_bind (Scalar.mapNum h.f) (by rw [h.mono_toPoly]; exact h.poly_mul _ (.var v0)) fun init => ?_
  refine go_foldIdx (fun s m j => ?_) _ _ _ rfl 1
  refine go_bind _ (goGet_hom _ _ _) fun v =>
    go_bind (Scalar.mapNum h.f) (by rw [h.mono_toPoly]; exact h.poly_mul _ (.var v)) fun t =>
    go_bind _ (h.plus _ _) fun u => ?_
  cases u <;> rfl

theorem mmMul (rows : List (List (Mono R))) (e : Expr R) :
    Verif.mmMul (rows.map (List.map (Mono.mapNum h.f))) (e.mapNum h.f) = Expr.mapNum h.f <$> Verif.mmMul rows e := by
  rw [Verif.mmMul.eq_def, Verif.mmMul.eq_def]
  refine go_bind0 (h.mat_check (.m rows)) fun _ => go_bind0 (h.expr_check _) fun _ =>
    go_bind0 (rowDims_hom _ _) fun d => go_bind0 (h.expr_dims _) fun _ => go_bind0 rfl fun _ => ?_
  rcases e with (c | v | m | q) | (l | l | l | l) | b <;> try rfl
  · simp [h.mono_mulK, Function.comp_def]
  · by_cases hd : d.1 = 1
    · simp only [hd, if_true, Expr.mapNum_v, Vec.mapNum_v]
      refine go_bind _ (goGet_hom _ _ _) fun row => go_bind (Scalar.mapNum h.f) (go_foldIdx0 (fun s x i => ?_) _ _ _ ?_)
        fun _ => go_bind _ (h.asSimplified _) fun _ => rfl
      · exact go_bind _ (goGet_hom _ _ _) fun y => go_bind _ (h.mono_mul _ (.var y)) fun _ => h.plus _ _
      · rw [Scalar.mapNum_k, h.zero]
    · simp only [hd, if_false, Expr.mapNum_v, Vec.mapNum_v]
      exact go_bind _ (go_mapM (fun row => h.mmRowMul row l) _) fun _ => go_bind _ (h.concretizeVec _) fun _ => rfl
  · exact h.matMulTemplate (.m rows) b

theorem pmMul (rows : List (List (Poly R))) (e : Expr R) :
    Verif.pmMul (rows.map (List.map (Poly.mapNum h.f))) (e.mapNum h.f) = Expr.mapNum h.f <$> Verif.pmMul rows e := by
  rw [Verif.pmMul.eq_def, Verif.pmMul.eq_def]
  refine go_bind0 (h.mat_check (.p rows)) fun _ => go_bind0 (h.expr_check _) fun _ =>
    go_bind0 (rowDims_hom _ _) fun d => go_bind0 (h.expr_dims _) fun _ => go_bind0 rfl fun _ => ?_
  rcases e with (c | v | m | q) | (l | l | l | l) | b <;> try rfl
  · exact go_bind _ (go_mapM2 (fun p => h.poly_mul p (.k c)) _) fun _ => go_bind _ (h.concretizeM _) fun _ =>
      h.expr_asSimplified _
  · refine go_bind (List.map (Scalar.mapNum h.f)) (go_mapM (fun row => ?_) _) fun sums => ?_
    · refine go_foldIdx0 (fun s x i => ?_) _ _ _ ?_
      · exact go_bind _ (goGet_hom _ _ _) fun y => go_bind _ (h.poly_mul _ (.var y)) fun _ => h.plus _ _
      · rw [Scalar.mapNum_k, h.zero]
    · by_cases hd : d.1 = 1
      · simp only [hd, if_true]
        exact go_bind _ (goGet_hom _ _ _) fun _ => go_bind _ (h.asSimplified _) fun _ => rfl
      · simp only [hd, if_false]
        exact h.concretizeV _
  · exact h.matMulTemplate (.p rows) b

theorem mat_mul (a : Mat R) (e : Expr R) : (a.mapNum h.f).mul (e.mapNum h.f) = Expr.mapNum h.f <$> a.mul e := by
  cases a
  · exact h.kmMul _ _
  · exact h.vmMul _ _
  · exact h.mmMul _ _
  · exact h.pmMul _ _

theorem expr_mul (a e : Expr R) : (a.mapNum h.f).mul (e.mapNum h.f) = Expr.mapNum h.f <$> a.mul e := by
  rcases a with a | a | a
  · rcases e with b | b | b
    · cases a <;> exact go_bind _ (h.smul _ b) fun _ => rfl
    · cases a
      · exact go_bind0 (h.expr_check (.v b)) fun _ => rfl
      · exact h.mulVec _ b
      · exact go_bind0 (h.mono_check _) fun _ => go_bind0 (h.expr_check (.v b)) fun _ =>
          go_bind0 (h.expr_dims (.v b)) fun _ => go_bind0 rfl fun _ => rfl
      · rename_i p
        exact go_bind0 (h.poly_check _) fun _ => go_bind0 (h.vec_check b) fun _ =>
          go_bind _ (h.vec_mul b (.s (.poly p))) fun _ => h.expr_asSimplified _
    · cases a
      · exact go_bind0 (h.expr_check (.m b)) fun _ => rfl
      · exact go_bind0 (h.var_check _) fun _ => go_bind0 (h.mat_check b) fun _ =>
          go_bind0 (h.mat_dims b) fun _ => go_bind0 rfl fun _ => rfl
      · exact go_bind0 (h.mono_check _) fun _ => go_bind0 (h.expr_check (.m b)) fun _ =>
          go_bind0 (h.expr_dims (.m b)) fun _ => go_bind0 rfl fun _ => rfl
      · rename_i p
        exact go_bind0 (h.poly_check _) fun _ => go_bind0 (h.mat_check b) fun _ =>
          go_bind _ (h.mat_mul b (.s (.poly p))) fun _ => h.expr_asSimplified _
  · exact h.vec_mul a e
  · exact h.mat_mul a e

/-! ## Minus, Power -/

theorem expr_mulF64 (e : Expr R) (c : R) : (e.mapNum h.f).mulF64 (h.f c) = Expr.mapNum h.f <$> e.mulF64 c := by
  have hm := fun e : Expr R => go_bind (b := Expr.mapNum h.f) _ (h.expr_mul e (.s (.k c)))
    fun out => h.expr_asSimplified out
  rcases e with (d | v | m | q) | (l | l | l | l) | (l | l | l | l)
  · simp [Expr.mulF64, h.mul]
  · exact hm (.s (.var v))
  · exact go_bind _ (h.mono_mul m (.k c)) fun _ => rfl
  · exact hm (.s (.poly q))
  · exact hm (.v (.k l))
  · exact h.vec_mul (.v l) (.s (.k c))
  · exact hm (.v (.m l))
  · exact hm (.v (.p l))
  · exact h.kmMul l (.s (.k c))
  · exact hm (.m (.v l))
  · exact h.mmMul l (.s (.k c))
  · exact hm (.m (.p l))

theorem minusGen (a b : Expr R) : (a.mapNum h.f).minusGen (b.mapNum h.f) = Expr.mapNum h.f <$> a.minusGen b :=
  go_bind (Expr.mapNum h.f) (by rw [h.negOne]; exact h.expr_mulF64 b _) fun _ => h.expr_plus _ _

theorem expr_minus (a b : Expr R) : (a.mapNum h.f).minus (b.mapNum h.f) = Expr.mapNum h.f <$> a.minus b := by
  have hg : ∀ a : Expr R, (do
      (a.mapNum h.f).check
      (b.mapNum h.f).check
      checkDimAdd (← (a.mapNum h.f).dims) (← (b.mapNum h.f).dims)
      (a.mapNum h.f).minusGen (b.mapNum h.f)) = Expr.mapNum h.f <$> (do
      a.check
      b.check
      checkDimAdd (← a.dims) (← b.dims)
      a.minusGen b) := fun a => go_bind0 (h.expr_check a) fun _ => go_bind0 (h.expr_check b) fun _ =>
    go_bind0 (h.expr_dims a) fun _ => go_bind0 (h.expr_dims b) fun _ => go_bind0 rfl fun _ => h.minusGen a b
  rcases a with (c | v | m | q) | (l | l | l | l) | (l | l | l | l)
  · exact go_bind0 (h.expr_check b) fun _ => h.minusGen (.s (.k c)) b
  · exact hg (.s (.var v))
  · exact hg (.s (.mono m))
  · exact go_bind0 (h.poly_check q) fun _ => go_bind0 (h.expr_check b) fun _ => h.minusGen (.s (.poly q)) b
  · refine go_bind0 (h.expr_check b) fun _ => go_bind0 (h.expr_dims b) fun d => ?_
    rw [List.length_map]
    refine go_bind0 rfl fun _ => ?_
    cases b with
    | m b => rfl
    | s b => exact h.minusGen (.v (.k l)) (.s b)
    | v b => exact h.minusGen (.v (.k l)) (.v b)
  · exact hg (.v (.v l))
  · exact hg (.v (.m l))
  · exact hg (.v (.p l))
  · exact hg (.m (.k l))
  · exact hg (.m (.v l))
  · exact hg (.m (.m l))
  · exact hg (.m (.p l))

theorem vec_power (a : Vec R) (n : Int) : (a.mapNum h.f).power n = Scalar.mapNum h.f <$> a.power n := by
  rw [Vec.power, Vec.power]
  refine go_bind0 (h.vec_check a) fun _ => ?_
  by_cases hn : n < 0
  · simp [hn]; rfl
  simp only [hn, if_false]
  refine go_bind0 (h.vec_len a) fun k => ?_
  by_cases hk : k ≠ 1
  · simp [hk]; rfl
  simp only [hk, if_false]
  refine go_foldRange (fun s j => ?_) _ _ _ ?_
  · exact go_bind _ (h.vec_atVec a 0) fun _ => h.smul _ _
  · rw [Scalar.mapNum_k, h.one]

theorem identityRows (n : Nat) : (Verif.identityRows n : List (List S)) = (Verif.identityRows n).map (List.map h.f) := by
  simp [Verif.identityRows, Function.comp_def, apply_ite h.f, h.one, h.zero]

theorem mat_power (a : Mat R) (n : Int) : (a.mapNum h.f).power n = Mat.mapNum h.f <$> a.power n := by
  rw [Mat.power, Mat.power]
  refine go_bind0 (h.mat_check a) fun _ => go_bind0 (h.mat_dims a) fun d => ?_
  by_cases h1 : d.1 ≠ d.2
  · simp [h1]; rfl
  simp only [h1, if_false]
  by_cases h2 : n < 0
  · simp [h2]; rfl
  simp only [h2, if_false]
  by_cases h3 : d.1 = 0
  · simp [h3]; rfl
  simp only [h3, if_false]
  have hk := h.kmPlus (Verif.identityRows d.1) (.s (.k GoNum.zero))
  rw [← h.identityRows, Expr.mapNum_s, Scalar.mapNum_k, h.zero] at hk
  refine go_bind _ hk fun e => ?_
  cases e with
  | s e => rfl
  | v e => rfl
  | m e =>
    simp only [Expr.mapNum_m, pure_bind]
    refine go_foldRange (fun s _ => ?_) _ _ _ rfl
    refine go_bind _ (h.mat_mul s (.m a)) fun u => ?_
    cases u <;> rfl

/-! ## Transpose, HStack, VStack -/

theorem transposeRows {α β : Type} (g : α → β) (rows : List (List α)) (c : Nat) :
    Verif.transposeRows (rows.map (List.map g)) c = List.map (List.map g) <$> Verif.transposeRows rows c :=
  go_mapM' (fun _ => go_col _ _ _) _

theorem vec_transpose (a : Vec R) : (a.mapNum h.f).transpose = Mat.mapNum h.f <$> a.transpose := by
  cases a with
  | k l =>
    by_cases hl : l = []
    · simp [Vec.transpose, hl]; rfl
    · simp [Vec.transpose, hl]
  | v l => exact go_bind0 (h.vec_check (.v l)) fun _ => rfl
  | m l => exact go_bind0 (h.vec_check (.m l)) fun _ => rfl
  | p l => exact go_bind0 (h.vec_check (.p l)) fun _ => rfl

theorem mat_transpose (a : Mat R) : (a.mapNum h.f).transpose = Mat.mapNum h.f <$> a.transpose := by
  cases a with
  | k l =>
    exact go_bind _ (h.kToDense l) fun _ => go_bind0 (rowDims_hom _ _) fun _ => go_bind _ (transposeRows _ _ _) fun _ => rfl
  | v l => exact go_bind0 (h.mat_dims (.v l)) fun _ => go_bind _ (transposeRows _ _ _) fun _ => rfl
  | m l => exact go_bind0 (h.mat_dims (.m l)) fun _ => go_bind _ (transposeRows _ _ _) fun _ => rfl
  | p l => exact go_bind0 (h.mat_dims (.p l)) fun _ => go_bind _ (transposeRows _ _ _) fun _ => rfl

theorem expr_transpose (e : Expr R) : (e.mapNum h.f).transpose = Expr.mapNum h.f <$> e.transpose := by
  rcases e with (c | v | m | q) | a | a
  · rfl
  · rfl
  · exact go_bind0 (h.mono_check m) fun _ => rfl
  · exact go_bind0 (h.poly_check q) fun _ => rfl
  · exact go_bind _ (h.vec_transpose a) fun _ => rfl
  · exact go_bind _ (h.mat_transpose a) fun _ => rfl

theorem expr_row (e : Expr R) (i c : Nat) : (e.mapNum h.f).row i c = List.map (Scalar.mapNum h.f) <$> e.row i c :=
  go_mapM' (fun _ => h.expr_at _ _ _) _

theorem dims_list (es : List (Expr R)) : (es.map (Expr.mapNum h.f)).mapM Expr.dims = es.mapM Expr.dims := by
  have := go_mapM (F := Expr.dims) (G := Expr.dims) (b := id) (fun e => by rw [h.expr_dims, id_map]) es
  simpa using this

theorem zip_left {α β γ : Type} (g : α → β) (l : List α) (m : List γ) :
    (l.map g).zip m = (l.zip m).map (fun p => (g p.1, p.2)) := by
  induction l generalizing m with
  | nil => rfl
  | cons x l ih => cases m <;> simp [ih]

theorem hstack (es : List (Expr R)) :
    Verif.hstack (es.map (Expr.mapNum h.f)) = Expr.mapNum h.f <$> Verif.hstack es := by
  rw [Verif.hstack, Verif.hstack]
  by_cases hn : es = []
  · simp [hn]; rfl
  simp only [hn, List.map_eq_nil_iff, if_false]
  refine go_bind0 (h.dims_list es) fun ds => go_bind0 rfl fun _ => ?_
  cases ds with
  | nil => rfl
  | cons d ds =>
    simp only [pure_bind]
    refine go_bind (List.map (List.map (Scalar.mapNum h.f))) (go_mapM' (fun i => ?_) _) fun _ => h.concretizeM _
    rw [zip_left]
    refine go_bind (List.map (List.map (Scalar.mapNum h.f))) (go_mapM (fun p => h.expr_row p.1 i p.2.2) _) fun rs => ?_
    simp [List.map_flatten]

theorem vstack (es : List (Expr R)) :
    Verif.vstack (es.map (Expr.mapNum h.f)) = Expr.mapNum h.f <$> Verif.vstack es := by
  rw [Verif.vstack, Verif.vstack]
  by_cases hn : es = []
  · simp [hn]; rfl
  simp only [hn, List.map_eq_nil_iff, if_false]
  refine go_bind0 (h.dims_list es) fun ds => go_bind0 rfl fun _ => ?_
  rw [zip_left]
  refine go_bind (List.map (List.map (List.map (Scalar.mapNum h.f))))
    (go_mapM (fun p => ?_) _) fun rs => ?_
  · exact go_mapM' (fun i => h.expr_row p.1 i p.2.2) _
  · rw [← List.map_flatten]
    exact h.concretizeM _

/-! ## Variables, Constant, Degree, LinearCoeff -/

theorem flatMap_mono (l : List (Mono R)) : (l.map (Mono.mapNum h.f)).flatMap Mono.variables =
    (l.flatMap Mono.variables).map (Var.mapNum h.f) := by
  rw [List.map_flatMap, List.flatMap_map]
  rfl

theorem flatMap_poly (l : List (Poly R)) : (l.map (Poly.mapNum h.f)).flatMap Poly.variables =
    (l.flatMap Poly.variables).map (Var.mapNum h.f) := by
  rw [List.map_flatMap, List.flatMap_map]
  congr 1; funext m
  exact h.poly_variables m

theorem expr_variables (e : Expr R) : (e.mapNum h.f).variables = List.map (Var.mapNum h.f) <$> e.variables := by
  rcases e with a | (l | l | l | l) | (l | l | l | l)
  · simp [Expr.variables, h.variables]
  · rfl
  · simp [Expr.variables, h.uniqueVars_hom]
  · refine go_bind0 (h.vec_check (.m l)) fun _ => ?_
    simp [h.flatMap_mono, h.uniqueVars_hom]
  · simp [Expr.variables, h.flatMap_poly, h.uniqueVars_hom]
  · rfl
  · refine go_bind0 (h.mat_check (.v l)) fun _ => ?_
    simp [← List.map_flatten, h.uniqueVars_hom]
  · refine go_bind0 (h.mat_check (.m l)) fun _ => ?_
    simp [← List.map_flatten, h.flatMap_mono, h.uniqueVars_hom]
  · refine go_bind0 (h.mat_check (.p l)) fun _ => ?_
    simp [← List.map_flatten, h.flatMap_poly, h.uniqueVars_hom]

theorem newVecDense (l : List R) : Verif.newVecDense (l.map h.f) = List.map h.f <$> Verif.newVecDense l := by
  by_cases hl : l = []
  · simp [Verif.newVecDense, hl]; rfl
  · simp [Verif.newVecDense, hl]

theorem vec_constant (a : Vec R) : (a.mapNum h.f).constant = List.map h.f <$> a.constant := by
  cases a with
  | k l => exact h.newVecDense l
  | v l =>
    have := h.newVecDense (l.map (fun _ => GoNum.zero))
    simpa [Vec.constant, Function.comp_def, h.zero] using this
  | m l =>
    refine go_bind0 (h.vec_check (.m l)) fun _ => ?_
    simp [Function.comp_def, h.mono_constant]
  | p l => exact go_bind0 (h.vec_check (.p l)) fun _ => go_mapM h.poly_constant _

theorem mat_constant (a : Mat R) : (a.mapNum h.f).constant = List.map (List.map h.f) <$> a.constant := by
  cases a with
  | k l => exact h.kToDense l
  | v l =>
    refine go_bind0 (h.mat_dims (.v l)) fun d => ?_
    by_cases hd : d.2 = 0
    · simp [hd]; rfl
    · simp [hd, Function.comp_def, h.zero]
  | m l =>
    refine go_bind0 (h.mat_dims (.m l)) fun d => ?_
    by_cases hd : d.2 = 0
    · simp [hd]; rfl
    · simp [hd, Function.comp_def, h.mono_constant]
  | p l =>
    refine go_bind0 (h.mat_dims (.p l)) fun d => ?_
    by_cases hd : d.2 = 0
    · simp [hd]; rfl
    · simp only [hd, if_false]
      exact go_mapM2 h.poly_constant _

theorem maxDegreeLoop {α β : Type} (g : α → β) {F : α → Go Int} {G : β → Go Int} (hg : ∀ x, G (g x) = F x)
    (l : List α) : Verif.maxDegreeLoop G (l.map g) = Verif.maxDegreeLoop F l := by
  rw [Verif.maxDegreeLoop, Verif.maxDegreeLoop, List.foldlM_map]
  simp only [hg]

theorem expr_degree (e : Expr R) : (e.mapNum h.f).degree = e.degree := by
  rcases e with a | (l | l | l | l) | (l | l | l | l)
  · exact h.degree a
  · rfl
  · rfl
  · have := h.vec_check (.m l)
    simp only [Vec.mapNum_m] at this
    simp only [Expr.mapNum_v, Vec.mapNum_m, Expr.degree, this, maxDegreeLoop _ h.mono_degree]
  · have := h.vec_check (.p l)
    simp only [Vec.mapNum_p] at this
    simp only [Expr.mapNum_v, Vec.mapNum_p, Expr.degree, this, maxDegreeLoop _ h.poly_degree]
  · rfl
  · rfl
  · have := h.mat_check (.m l)
    simp only [Mat.mapNum_m] at this
    simp only [Expr.mapNum_m, Mat.mapNum_m, Expr.degree, this, ← List.map_flatten, maxDegreeLoop _ h.mono_degree]
  · have := h.mat_check (.p l)
    simp only [Mat.mapNum_p] at this
    simp only [Expr.mapNum_m, Mat.mapNum_p, Expr.degree, this, ← List.map_flatten, maxDegreeLoop _ h.poly_degree]

theorem vec_linearCoeff (a : Vec R) (w : List (List (Var R))) :
    (a.mapNum h.f).linearCoeff (w.map (·.map (Var.mapNum h.f))) = List.map (List.map h.f) <$> a.linearCoeff w := by
  have key : ∀ ws : List (Var R), (do
      if (ws.map (Var.mapNum h.f)).isEmpty then throw .linCoeffConst
      let n ← (a.mapNum h.f).len
      if n = 0 then throw .empty
      (List.range n).mapM (fun (i : Nat) => do
        let x ← (a.mapNum h.f).atVec i
        x.linearCoeff [ws.map (Var.mapNum h.f)]) : Go _) = List.map (List.map h.f) <$> (do
      if ws.isEmpty then throw .linCoeffConst
      let n ← a.len
      if n = 0 then throw .empty
      (List.range n).mapM (fun (i : Nat) => do
        let x ← a.atVec i
        x.linearCoeff [ws]) : Go _) := by
    intro ws
    rw [List.isEmpty_map]
    by_cases hw : ws.isEmpty
    · simp [hw]; rfl
    simp only [hw]
    refine go_bind0 (h.vec_len a) fun n => ?_
    by_cases hn : n = 0
    · simp [hn]
    simp only [hn, if_false]
    exact go_mapM' (fun i => go_bind _ (h.vec_atVec _ _) fun x => h.linearCoeff x [ws]) _
  rw [Vec.linearCoeff, Vec.linearCoeff]
  refine go_bind0 (h.vec_check a) fun _ => ?_
  rcases w with _ | ⟨w, _ | ⟨w', ws⟩⟩
  · exact go_bind _ (h.expr_variables (.v a)) key
  · exact go_bind _ (x := pure w) rfl key
  · rfl

/-! ## Substitute -/

theorem vec_substitute (a : Vec R) (w : Var R) (s : Scalar R) :
    (a.mapNum h.f).substitute (w.mapNum h.f) (s.mapNum h.f) = Vec.mapNum h.f <$> a.substitute w s := by
  have hg : ∀ a : Vec R, (do
      (a.mapNum h.f).check
      (w.mapNum h.f).check
      (s.mapNum h.f).check
      let n ← (a.mapNum h.f).len
      Verif.concretizeVec (← (List.range n).mapM (fun (i : Nat) => do
        let x ← (a.mapNum h.f).atVec i
        x.substitute (w.mapNum h.f) (s.mapNum h.f)))) = Vec.mapNum h.f <$> (do
      a.check
      w.check
      s.check
      let n ← a.len
      Verif.concretizeVec (← (List.range n).mapM (fun (i : Nat) => do
        let x ← a.atVec i
        x.substitute w s))) := fun a => go_bind0 (h.vec_check a) fun _ => go_bind0 (h.var_check w) fun _ =>
    go_bind0 (h.scalar_check s) fun _ => go_bind0 (h.vec_len a) fun _ =>
    go_bind _ (go_mapM' (fun (i : Nat) => go_bind _ (h.vec_atVec a i) fun x => h.substitute x w s) _) fun _ => h.concretizeVec _
  cases a with
  | k l => rfl
  | v l => exact hg (.v l)
  | m l => exact hg (.m l)
  | p l => exact hg (.p l)

theorem mat_substitute (a : Mat R) (w : Var R) (s : Scalar R) :
    (a.mapNum h.f).substitute (w.mapNum h.f) (s.mapNum h.f) = Mat.mapNum h.f <$> a.substitute w s := by
  have hg : ∀ a : Mat R, (do
      (a.mapNum h.f).check
      (w.mapNum h.f).check
      (s.mapNum h.f).check
      let d ← (a.mapNum h.f).dims
      Verif.concretizeMat (← (List.range d.1).mapM (fun (i : Nat) => (List.range d.2).mapM (fun (j : Nat) => do
        let x ← (a.mapNum h.f).at i j
        x.substitute (w.mapNum h.f) (s.mapNum h.f))))) = Mat.mapNum h.f <$> (do
      a.check
      w.check
      s.check
      let d ← a.dims
      Verif.concretizeMat (← (List.range d.1).mapM (fun (i : Nat) => (List.range d.2).mapM (fun (j : Nat) => do
        let x ← a.at i j
        x.substitute w s)))) := fun a => go_bind0 (h.mat_check a) fun _ => go_bind0 (h.var_check w) fun _ =>
    go_bind0 (h.scalar_check s) fun _ => go_bind0 (h.mat_dims a) fun _ =>
    go_bind _ (go_range (fun i j => go_bind _ (h.mat_at a i j) fun x => h.substitute x w s) _ _) fun _ =>
      h.concretizeMat _
  cases a with
  | k l => rfl
  | v l => exact hg (.v l)
  | m l => exact hg (.m l)
  | p l => exact hg (.p l)

theorem vec_substMap (hk : h.Keys) (a : Vec R) (sm : SubMap R) :
    (a.mapNum h.f).substMap (sm.mapNum h.f) = Vec.mapNum h.f <$> a.substMap sm := by
  have hf : ∀ a : Vec R, (sm.mapNum h.f).foldlM (fun (acc : Vec S) kv => acc.substitute kv.1 kv.2) (a.mapNum h.f) =
      Vec.mapNum h.f <$> sm.foldlM (fun (acc : Vec R) kv => acc.substitute kv.1 kv.2) a := fun a =>
    go_foldlM (fun s kv => h.vec_substitute s kv.1 kv.2) sm a
  have hg := fun a : Vec R => go_bind0 (h.vec_check a) fun _ => go_bind0 (h.checkSubMap sm) fun _ => hf a
  cases a with
  | k l => rfl
  | v l => exact hg (.v l)
  | m l => exact hg (.m l)
  | p l => exact hg (.p l)

theorem mat_substMap (hk : h.Keys) (a : Mat R) (sm : SubMap R) :
    (a.mapNum h.f).substMap (sm.mapNum h.f) = Mat.mapNum h.f <$> a.substMap sm := by
  have hf : ∀ a : Mat R, (sm.mapNum h.f).foldlM (fun (acc : Mat S) kv => acc.substitute kv.1 kv.2) (a.mapNum h.f) =
      Mat.mapNum h.f <$> sm.foldlM (fun (acc : Mat R) kv => acc.substitute kv.1 kv.2) a := fun a =>
    go_foldlM (fun s kv => h.mat_substitute s kv.1 kv.2) sm a
  have hg := fun a : Mat R => go_bind0 (h.mat_check a) fun _ => go_bind0 (h.checkSubMap sm) fun _ => hf a
  cases a with
  | k l => rfl
  | v l => exact hg (.v l)
  | m l => exact hg (.m l)
  | p l => exact hg (.p l)

theorem expr_substitute (e : Expr R) (w : Var R) (s : Scalar R) :
    (e.mapNum h.f).substitute (w.mapNum h.f) (s.mapNum h.f) = Expr.mapNum h.f <$> e.substitute w s := by
  cases e with
  | s a => exact go_bind _ (h.substitute a w s) fun _ => rfl
  | v a => exact go_bind _ (h.vec_substitute a w s) fun _ => rfl
  | m a => exact go_bind _ (h.mat_substitute a w s) fun _ => rfl

theorem expr_substMap (hk : h.Keys) (e : Expr R) (sm : SubMap R) :
    (e.mapNum h.f).substMap (sm.mapNum h.f) = Expr.mapNum h.f <$> e.substMap sm := by
  cases e with
  | s a => exact go_bind _ (h.substMap hk a sm) fun _ => rfl
  | v a => exact go_bind _ (h.vec_substMap hk a sm) fun _ => rfl
  | m a => exact go_bind _ (h.mat_substMap hk a sm) fun _ => rfl

/-! ## DerivativeWrt -/

theorem afterDerivative (m : Mono R) (v : Var R) :
    (m.mapNum h.f).afterDerivative (v.mapNum h.f) = (m.afterDerivative v).mapNum h.f := by
  rw [Mono.afterDerivative, Mono.afterDerivative, Mono.mapNum_vars, h.findVar_hom]
  cases findVar v m.vars with
  | none => rfl
  | some i =>
    by_cases hw : m.exps[i]? = some 1 <;> simp [hw, Mono.mapNum]

theorem derivPoly (p : Poly R) (v : Var R) :
    (p.mapNum h.f).derivPoly (v.mapNum h.f) = Poly.mapNum h.f <$> p.derivPoly v :=
  go_bind _ (h.poly_derivative p v) fun s => by cases s <;> rfl

theorem vec_derivative (a : Vec R) (v : Var R) :
    (a.mapNum h.f).derivative (v.mapNum h.f) = Vec.mapNum h.f <$> a.derivative v := by
  cases a with
  | k l =>
    refine go_bind (List.map h.f) ?_ fun _ => rfl
    have := h.newVecDense (l.map (fun _ => GoNum.zero))
    simpa [Function.comp_def, h.zero] using this
  | v l =>
    refine go_bind0 (h.vec_check (.v l)) fun _ => go_bind0 (h.var_check v) fun _ => go_bind (List.map h.f) ?_ fun _ => rfl
    have := h.newVecDense (l.map (fun w => if w.id = v.id then GoNum.one else GoNum.zero))
    refine Eq.trans ?_ this
    congr 1
    rw [List.map_map, List.map_map]
    apply List.map_congr_left
    intro w _
    by_cases hw : w.id = v.id <;> simp [hw, h.one, h.zero]
  | m l =>
    refine go_bind0 (h.vec_check (.m l)) fun _ => ?_
    refine go_bind (List.map (fun d : Bool × Scalar R => (d.1, d.2.mapNum h.f))) (go_mapM (fun m => ?_) _) fun ds => ?_
    · refine go_bind _ (h.mono_derivative m v) fun d1 => ?_
      rw [h.afterDerivative]
      refine go_bind _ (h.mono_derivative _ v) fun d2 => ?_
      rw [h.isMono]; rfl
    · rw [List.any_map]
      have : ((fun x : Bool × Scalar S => x.1) ∘ fun d : Bool × Scalar R => (d.1, d.2.mapNum h.f)) = (·.1) := rfl
      rw [this]
      by_cases hd : ds.any (·.1)
      · simp only [hd, if_true]
        refine go_bind (List.map (Mono.mapNum h.f)) (go_mapM (fun d => ?_) _) fun _ => rfl
        rcases d with ⟨b, c | c | c | c⟩ <;> rfl
      · simp only [hd]
        refine go_bind (List.map h.f) (go_mapM (fun d => ?_) _) fun _ => rfl
        rcases d with ⟨b, c | c | c | c⟩ <;> rfl
  | p l => exact go_bind _ (go_mapM (fun p => h.derivPoly p v) _) fun _ => rfl

theorem mat_derivative (a : Mat R) (v : Var R) :
    (a.mapNum h.f).derivative (v.mapNum h.f) = Mat.mapNum h.f <$> a.derivative v := by
  cases a with
  | k l =>
    refine go_bind0 (rowDims_hom _ _) fun d => ?_
    by_cases hd : d.2 = 0
    · simp [hd]
    · simp [hd, h.zero]
  | v l =>
    refine go_bind0 (h.mat_dims (.v l)) fun d => ?_
    by_cases hd : d.2 = 0
    · simp [hd]; rfl
    · simp only [hd, if_false, map_pure, Mat.mapNum_k, List.map_map]
      congr 2
      apply List.map_congr_left
      intro row _
      simp only [Function.comp_apply, List.map_map]
      apply List.map_congr_left
      intro w _
      by_cases hw : w.id = v.id <;> simp [hw, h.one, h.zero]
  | m l =>
    exact go_bind0 (h.mat_check (.m l)) fun _ => go_bind0 (h.var_check v) fun _ =>
      go_bind _ (go_mapM2 (fun m => h.mono_derivative m v) _) fun _ => h.concretizeMat _
  | p l =>
    exact go_bind0 (h.mat_check (.p l)) fun _ => go_bind0 (h.var_check v) fun _ =>
      go_bind _ (go_mapM2 (fun p => h.derivPoly p v) _) fun _ => rfl

theorem expr_derivative (e : Expr R) (v : Var R) :
    (e.mapNum h.f).derivative (v.mapNum h.f) = Expr.mapNum h.f <$> e.derivative v := by
  cases e with
  | s a => exact go_bind _ (h.derivative a v) fun _ => rfl
  | v a => exact go_bind _ (h.vec_derivative a v) fun _ => rfl
  | m a => exact go_bind _ (h.mat_derivative a v) fun _ => rfl

end NumHom

end Verif
