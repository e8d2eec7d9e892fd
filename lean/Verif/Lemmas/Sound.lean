import Verif.Lemmas.ArrDen
import Verif.Props.Reject

/-!
# Whatever the array operations return is right

The lemmas of `ArrOps` and `ArrMul` say when an operation succeeds.  Here nothing is assumed about the
kinds of the operands; the conclusion is about the value returned, if there is one.  `G f x` is read
"the scalar `x` is well formed and means `f`".
-/

namespace Verif

open GoNum

theorem Go.Ok.post {α : Type} {x : Go α} {Q : α → Prop} (h : Go.Ok x Q) : Go.Post x Q := by
  obtain ⟨a, h1, h2⟩ := h
  intro b hb
  rw [h1, Except.ok.injEq] at hb
  exact hb ▸ h2

theorem Go.Ok.bindPost {α β : Type} {x : Go α} {f : α → Go β} {P : α → Prop} {Q : β → Prop}
    (h : Go.Ok x P) (hf : ∀ a, P a → Go.Post (f a) Q) : Go.Post (x >>= f) Q := h.post.bind hf

theorem LArr.mapM_post {α β : Type} {n : ℕ} {Q : ℕ → α → Prop} {Q' : ℕ → β → Prop} {l : List α}
    {f : α → Go β} (h : LArr n Q l) (hf : ∀ i a, i < n → Q i a → Go.Post (f a) (Q' i)) :
    Go.Post (l.mapM f) (LArr n Q') := by
  induction l generalizing n Q Q' with
  | nil =>
    have : n = 0 := h.1.symm
    subst this
    exact Go.post_pure (LArr.nil _)
  | cons a l ih =>
    obtain ⟨n, rfl⟩ : ∃ k, n = k + 1 := ⟨l.length, h.1.symm⟩
    rw [LArr.cons_iff] at h
    rw [List.mapM_cons]
    refine (hf 0 a (by omega) h.1).bind fun b hb => ?_
    refine (ih (Q' := fun i => Q' (i + 1)) h.2
      (fun i a hi hq => hf (i + 1) a (by omega) hq)).bind fun bs hbs => ?_
    exact Go.post_pure (LArr.cons_iff.mpr ⟨hb, hbs⟩)

theorem LArr.foldlM_post {α β : Type} {n : ℕ} {Q : ℕ → α → Prop} {l : List α}
    {f : β → α → Go β} {I : ℕ → β → Prop} {b : β} (h : LArr n Q l) (hb : I 0 b)
    (hf : ∀ i b a, i < n → I i b → Q i a → Go.Post (f b a) (I (i + 1))) :
    Go.Post (l.foldlM f b) (I n) := by
  induction l generalizing n Q I b with
  | nil =>
    have : n = 0 := h.1.symm
    subst this
    exact Go.post_pure hb
  | cons a l ih =>
    obtain ⟨n, rfl⟩ : ∃ k, n = k + 1 := ⟨l.length, h.1.symm⟩
    rw [LArr.cons_iff] at h
    rw [List.foldlM_cons]
    refine (hf 0 b a (by omega) hb h.1).bind fun b' hb' => ?_
    exact ih (I := fun i => I (i + 1)) h.2 hb'
      (fun i b a hi hI hq => hf (i + 1) b a (by omega) hI hq)

theorem Arr.mapM_post {α β : Type} {r c : ℕ} {Q : ℕ → ℕ → α → Prop} {Q' : ℕ → ℕ → β → Prop}
    {g : List (List α)} {f : α → Go β} (h : Arr r c Q g)
    (hf : ∀ i j a, i < r → j < c → Q i j a → Go.Post (f a) (Q' i j)) :
    Go.Post (g.mapM (·.mapM f)) (Arr r c Q') :=
  LArr.mapM_post h fun i _ hi hrow => hrow.mapM_post fun j a hj => hf i j a hi hj

theorem earr_s_dims {R : Type} {r c : ℕ} {a : Scalar R} {Q : ℕ → ℕ → Scalar R → Prop}
    (h : EArr r c Q (.s a)) : r = 1 ∧ c = 1 := by
  have h1 : 1 = r := h.1
  have h2 := Arr.rowLen h (row := [a]) (by simp [Expr.grid])
  simp at h2
  exact ⟨h1.symm, h2.symm⟩

section
variable {R : Type} [GoNum R] {n r c : ℕ} {X : Type}

/-! ## Plus -/

/-- What the array code needs from the addition of scalars. -/
structure AddSem [Add X] (G : X → Scalar R → Prop) : Prop where
  stable : ∀ f, Stable (G f)
  add : ∀ {f g x y}, G f x → G g y → Go.Ok (x.plus y) (G (f + g))
  scale : ∀ {f d}, G f (.k d) → G f (.k (mul d one))
  num : ∀ {f g x d}, G f (.k x) → G g (.k d) → G (f + g) (.k (GoNum.add (mul d one) x))
  cons : ∀ {f g m p}, G f (.mono m) → G g (.poly p) →
    (∃ q, Poly.simplify ⟨m :: p.monos⟩ = .ok q) ∧ G (f + g) (.poly ⟨m :: p.monos⟩)

variable [AddCommMagma X] {G : X → Scalar R → Prop} {f g : ℕ → ℕ → X}

theorem vmPlusK_post (hG : AddSem G) {rows : List (List (Var R))} {ks : List (List R)}
    (ha : MArr r c (fun i j => G (f i j)) (.v rows)) (hb : MArr r c (fun i j => G (g i j)) (.k ks)) :
    Go.Post (vmPlusK rows ks) (EArr r c (fun i j => G (f i j + g i j))) := by
  refine Go.Post.bind (P := Arr r c fun i j p => G (f i j + g i j) (.poly p)) ?_
    fun q hq => Go.post_pure (earr_m_iff.mpr (Arr.map_iff.mpr hq))
  refine LArr.mapM_post (LArr.zipIdx (Arr.map_iff.mp ha)) fun i ri hi hri => ?_
  obtain ⟨h1, h2⟩ := hri
  refine LArr.mapM_post (LArr.zipIdx h1) fun j xj hj hxj => ?_
  obtain ⟨h3, h4⟩ := hxj
  rw [h2, h4]
  refine ((Arr.map_iff.mp hb).goGet2 hi hj).bindPost fun d hd => ?_
  refine (hG.add (x := .var xj.1) h3 hd).bindPost fun x hx => ?_
  cases x with
  | poly p => exact Go.post_pure hx
  | _ => exact Go.post_throw

/-- A matrix plus a scalar. -/
theorem Mat.plus_scalar_post (hG : AddSem G) (hr : 0 < r) (hc : 0 < c) {a : Mat R} {s : Scalar R} {t : X}
    (ha : MArr r c (fun i j => G (f i j)) a) (hs : G t s) :
    Go.Post (a.plus (.s s)) (EArr r c (fun i j => G (f i j + t))) := by
  have hca : ∀ i j x, G (f i j) x → x.check = .ok () := fun i j => (hG.stable _).check
  have hS : ∀ i j, i < r → j < c → Stable (G (f i j + t)) := fun _ _ _ _ => hG.stable _
  have hsp : G t (.poly s.toPoly) := (hG.stable t).poly s hs
  cases a with
  | k rows =>
    cases s with
    | k d => exact (kmPlus_k_ok hr hc ha d fun i j x _ _ hx => hG.num hx hs).post.mono fun _ h => h.1
    | var v =>
      exact (kmPlus_var_ok hr ha hca (Var.check_iff.mp ((hG.stable t).check _ hs)) hS
        fun i j x _ _ hx => hG.add hx hs).post.mono fun _ h => h.1
    | mono m => exact Go.post_bind' fun _ _ => Go.post_bind' fun _ _ => Go.post_bind' fun _ _ =>
        Go.post_bind' fun _ _ => Go.post_throw
    | poly p => exact Go.post_bind' fun _ _ => Go.post_bind' fun _ _ => Go.post_bind' fun _ _ =>
        Go.post_bind' fun _ _ => Go.post_throw
  | v rows =>
    refine Go.post_bind' fun _ _ => Go.post_bind' fun _ _ => ?_
    rw [(Arr.map_iff.mp ha).rowDims hr, Go.ok_bind]
    refine Go.post_bind' fun _ _ => Go.post_bind' fun _ _ => ?_
    cases s with
    | k d =>
      refine Go.post_bind' fun cs hcs => ?_
      unfold constRows at hcs
      rw [if_neg (by omega)] at hcs
      cases hcs
      exact vmPlusK_post hG ha (g := fun _ _ => t)
        (Arr.map_iff.mpr (LArr.replicate fun i _ => LArr.replicate fun j _ => hG.scale hs))
    | _ => exact Go.post_throw
  | m rows =>
    exact (mmPlus_scalar_ok hr ha hca ((hG.stable t).check _ hs)
      (fun i j m hm => (hG.cons hm hsp).1) fun i j m _ _ hm => (hG.cons hm hsp).2).post.mono fun _ h => h.1
  | p rows =>
    by_cases hv : ∀ v, s ≠ .var v
    · refine (pmPlus_scalar_ok hr hc ha hca ((hG.stable t).check _ hs) hv hS
        fun i j p u _ _ hp hu => ?_).post.mono fun _ h => h.1
      rcases hu with rfl | rfl
      · exact hG.add (x := .poly p) hp hs
      · exact hG.add (x := .poly p) hp hsp
    · obtain ⟨v, rfl⟩ : ∃ v, s = .var v := by simpa using hv
      exact Go.post_bind' fun _ _ => Go.post_bind' fun _ _ => Go.post_bind' fun _ _ =>
        Go.post_bind' fun _ _ => Go.post_bind' fun _ _ => Go.post_throw

/-- A matrix plus a matrix of the same size. -/
theorem Mat.plus_mat_post (hG : AddSem G) (hr : 0 < r) (hc : 0 < c) {a b : Mat R}
    (ha : MArr r c (fun i j => G (f i j)) a) (hb : MArr r c (fun i j => G (g i j)) b) :
    Go.Post (a.plus (.m b)) (EArr r c (fun i j => G (f i j + g i j))) := by
  have hca : ∀ i j x, G (f i j) x → x.check = .ok () := fun i j => (hG.stable _).check
  have hcb : ∀ i j x, G (g i j) x → x.check = .ok () := fun i j => (hG.stable _).check
  have hS : ∀ i j, i < r → j < c → Stable (G (f i j + g i j)) := fun _ _ _ _ => hG.stable _
  cases a with
  | k rows =>
    exact (kmPlus_mat_ok hr ha hca hb hcb hS fun i j x y _ _ hx hy => hG.add hx hy).post.mono
      fun _ h => h.1
  | v rows =>
    refine Go.post_bind' fun _ _ => Go.post_bind' fun _ _ => Go.post_bind' fun _ _ =>
      Go.post_bind' fun _ _ => Go.post_bind' fun _ _ => ?_
    cases b with
    | k ks => exact vmPlusK_post hG ha hb
    | _ => exact Go.post_throw
  | m rows =>
    cases b with
    | p ps =>
      exact (mmPlus_pm_ok hr ha hca hb hcb (fun i j m p hm hp => (hG.cons hm hp).1)
        fun i j m p _ _ hm hp => (hG.cons hm hp).2).post.mono fun _ h => h.1
    | _ => exact Go.post_bind' fun _ _ => Go.post_bind' fun _ _ => Go.post_bind' fun _ _ =>
        Go.post_bind' fun _ _ => Go.post_bind' fun _ _ => Go.post_throw
  | p rows =>
    have key := fun hk => (pmPlus_mat_ok hr hc ha hca hb hcb hk hS
      fun i j p y _ _ hp hy => hG.add (x := .poly p) hp hy).post.mono fun _ h => h.1
    cases b with
    | k ks => exact key (Or.inl ⟨ks, rfl⟩)
    | p ps => exact key (Or.inr ⟨ps, rfl⟩)
    | _ => exact Go.post_bind' fun _ _ => Go.post_bind' fun _ _ => Go.post_bind' fun _ _ =>
        Go.post_bind' fun _ _ => Go.post_bind' fun _ _ => Go.post_throw

theorem Mat.plus_vec_post {Q : Expr R → Prop} (a : Mat R) (b : Vec R) : Go.Post (a.plus (.v b)) Q := by
  cases a with
  | k rows => exact Go.post_bind' fun _ _ => Go.post_bind' fun _ _ => Go.post_bind' fun _ _ =>
        Go.post_bind' fun _ _ => Go.post_throw
  | _ => exact Go.post_bind' fun _ _ => Go.post_bind' fun _ _ => Go.post_bind' fun _ _ =>
        Go.post_bind' fun _ _ => Go.post_bind' fun _ _ => Go.post_throw

/-- An array plus a scalar. -/
theorem Expr.plus_scalar_post (hG : AddSem G) (hr : 0 < r) (hc : 0 < c) {a : Expr R} {s : Scalar R} {t : X}
    (ha : EArr r c (fun i j => G (f i j)) a) (hs : G t s) :
    Go.Post (a.plus (.s s)) (EArr r c (fun i j => G (f i j + t))) := by
  cases a with
  | s x =>
    obtain ⟨rfl, rfl⟩ := earr_s_dims ha
    have h : (Expr.s x).plus (.s s) = (do return .s (← x.plus s)) := by cases x <;> rfl
    rw [h]
    exact (hG.add (earr_s_iff.mp ha) hs).bindPost fun y hy => Go.post_pure (earr_s hy)
  | v a =>
    obtain rfl := earr_v_cols hr ha
    refine (Vec.plus_scalar_ok (Q := fun i => G (f i 0 + t)) hr (earr_v_iff.mp ha)
      (fun i => (hG.stable _).check) ((hG.stable t).check _ hs)
      (fun _ _ => hG.stable _) fun i x _ hx => hG.add hx hs).post.mono fun e he => ?_
    exact he.1.mono fun i j a _ hj h => by
      obtain rfl : j = 0 := by omega
      exact h
  | m a => exact Mat.plus_scalar_post hG hr hc ha hs

theorem EArr.simpPost {Q : ℕ → ℕ → Scalar R → Prop} (hr : 0 < r) (hS : ∀ i j, Stable (Q i j)) {e : Expr R}
    (h : EArr r c Q e) : Go.Post e.asSimplified (EArr r c Q) :=
  (h.asSimplified hr fun i j _ _ => hS i j).post.mono fun _ h => h.1

theorem EArr.ofCol {Q : ℕ → ℕ → Scalar R → Prop} {e : Expr R} (h : EArr n 1 (fun i _ => Q i 0) e) :
    EArr n 1 Q e :=
  h.mono fun i j a _ hj h => by
    obtain rfl : j = 0 := by omega
    exact h

/-- A scalar plus an array. -/
theorem Expr.scalar_plus_post (hG : AddSem G) (hr : 0 < r) (hc : 0 < c) {s : Scalar R} {b : Expr R} {t : X}
    (hs : G t s) (hb : EArr r c (fun i j => G (g i j)) b) :
    Go.Post ((Expr.s s).plus b) (EArr r c (fun i j => G (t + g i j))) := by
  have hS : ∀ i j, Stable (G (t + g i j)) := fun i j => hG.stable _
  have hsw : Go.Post (b.plus (.s s)) (EArr r c (fun i j => G (t + g i j))) :=
    (Expr.plus_scalar_post hG hr hc hb hs).mono fun e he => he.mono fun i j a _ _ h => by
      rwa [add_comm] at h
  cases b with
  | s y =>
    obtain ⟨rfl, rfl⟩ := earr_s_dims hb
    have h : (Expr.s s).plus (.s y) = (do return .s (← s.plus y)) := by cases s <;> rfl
    rw [h]
    exact (hG.add hs (earr_s_iff.mp hb)).bindPost fun y hy => Go.post_pure (earr_s hy)
  | v b =>
    cases s with
    | k d => exact Go.post_bind' fun _ _ => hsw
    | var x => exact Go.post_bind' fun _ _ => hsw.bind fun e he => he.simpPost hr hS
    | mono m => exact Go.post_bind' fun _ _ => Go.post_bind' fun _ _ => Go.post_bind' fun _ _ =>
        Go.post_bind' fun _ _ => Go.post_throw
    | poly p =>
      obtain rfl := earr_v_cols hr hb
      exact (Poly.plus_vec_ok (Q := fun i => G (t + g i 0)) hr ((hG.stable t).check _ hs)
        (earr_v_iff.mp hb) (fun i => (hG.stable _).check) (fun _ _ => hG.stable _)
        fun i x _ hx => hG.add (x := .poly p) hs hx).post.mono fun e he => he.1.ofCol
  | m b =>
    cases s with
    | k d => exact Go.post_bind' fun _ _ => hsw
    | var x => exact Go.post_bind' fun _ _ => Go.post_throw
    | mono m => exact Go.post_bind' fun _ _ => Go.post_bind' fun _ _ => Go.post_bind' fun _ _ =>
        Go.post_bind' fun _ _ => Go.post_throw
    | poly p =>
      exact (Poly.plus_mat_ok hr hc ((hG.stable t).check _ hs) hb
        (fun i j => (hG.stable _).check) (fun _ _ _ _ => hG.stable _)
        fun i j x _ _ hx => hG.add (x := .poly p) hs hx).post.mono fun e he => he.1

/-- Two arrays of the same shape. -/
theorem Expr.plus_post (hG : AddSem G) (hr : 0 < r) (hc : 0 < c) {a b : Expr R}
    (ha : EArr r c (fun i j => G (f i j)) a) (hb : EArr r c (fun i j => G (g i j)) b) :
    Go.Post (a.plus b) (EArr r c (fun i j => G (f i j + g i j))) := by
  have one : ∀ {k : ℕ → ℕ → X} {e : Expr R}, EArr 1 1 (fun _ _ => G (k 0 0)) e →
      EArr 1 1 (fun i j => G (k i j)) e := fun h => h.mono fun i j a hi hj h => by
    obtain rfl : i = 0 := by omega
    obtain rfl : j = 0 := by omega
    exact h
  have one' : ∀ {k : ℕ → ℕ → X} {e : Expr R}, EArr 1 1 (fun i j => G (k i j)) e →
      EArr 1 1 (fun _ _ => G (k 0 0)) e := fun h => h.mono fun i j a hi hj h => by
    obtain rfl : i = 0 := by omega
    obtain rfl : j = 0 := by omega
    exact h
  cases a with
  | s x =>
    obtain ⟨rfl, rfl⟩ := earr_s_dims ha
    exact (Expr.scalar_plus_post hG hr hc (earr_s_iff.mp ha) (one' hb)).mono
      fun e he => one (k := fun i j => f i j + g i j) he
  | v a =>
    cases b with
    | s y =>
      obtain ⟨rfl, rfl⟩ := earr_s_dims hb
      exact (Expr.plus_scalar_post hG hr hc (one' ha) (earr_s_iff.mp hb)).mono
        fun e he => one (k := fun i j => f i j + g i j) he
    | v b =>
      obtain rfl := earr_v_cols hr ha
      exact (Vec.plus_vec_ok (Q := fun i => G (f i 0 + g i 0)) hr (earr_v_iff.mp ha)
        (fun i => (hG.stable _).check) (earr_v_iff.mp hb) (fun i => (hG.stable _).check)
        (fun _ _ => hG.stable _) fun i x y _ hx hy => hG.add hx hy).post.mono fun e he =>
          EArr.ofCol (Q := fun i j => G (f i j + g i j)) he.1
    | m b => exact Go.post_bind' fun _ _ => Go.post_bind' fun _ _ => Go.post_bind' fun _ _ =>
        Go.post_bind' fun _ _ => Go.post_bind' fun _ _ => Go.post_throw
  | m a =>
    cases b with
    | s y =>
      obtain ⟨rfl, rfl⟩ := earr_s_dims hb
      exact (Expr.plus_scalar_post hG hr hc (one' ha) (earr_s_iff.mp hb)).mono
        fun e he => one (k := fun i j => f i j + g i j) he
    | v b => exact Mat.plus_vec_post a b
    | m b => exact Mat.plus_mat_post hG hr hc ha hb

end

/-! ## Multiply -/

section
variable {R : Type} [GoNum R] {n r c : ℕ} {X : Type} [AddCommMagma X] [CommMagma X] [Zero X]

/-- What the array code needs from the multiplication of scalars. -/
structure MulSem (G1 G2 G3 : X → Scalar R → Prop) : Prop where
  left : ∀ {f x}, G1 f x → x.check = .ok () ∧ G1 f (.poly x.toPoly)
  right : ∀ {f x}, G2 f x → x.check = .ok ()
  sum : AddSem G3
  zero : G3 0 (.k GoNum.zero)
  zadd : ∀ {f x}, G3 f x → G3 (0 + f) x
  mul : ∀ {f g x y}, G1 f x → G2 g y → Go.Ok (x.mul y) (G3 (f * g))
  mul' : ∀ {f g x y}, G1 f x → G2 g y → Go.Ok (y.mul x) (G3 (f * g))
  num : ∀ {f g x d}, G1 f (.k x) → G2 g (.k d) → G3 (f * g) (.k (GoNum.mul d x))
  mono : ∀ {f g m d}, G1 f (.mono m) → G2 g (.k d) → G3 (f * g) (.mono (m.mulK d))

variable {G1 G2 G3 : X → Scalar R → Prop} {f g : ℕ → ℕ → X}

theorem MulSem.checkL (hG : MulSem G1 G2 G3) {f : X} (x : Scalar R) (h : G1 f x) : x.check = .ok () :=
  (hG.left h).1

theorem MulSem.polyL (hG : MulSem G1 G2 G3) {f : X} (x : Scalar R) (h : G1 f x) :
    G1 f (.poly x.toPoly) := (hG.left h).2

theorem MulSem.checkR (hG : MulSem G1 G2 G3) {f : X} (x : Scalar R) (h : G2 f x) : x.check = .ok () :=
  hG.right h

/-- A matrix times a scalar. -/
theorem Mat.mul_scalar_post (hG : MulSem G1 G2 G3) (hr : 0 < r) (hc : 0 < c) {a : Mat R} {s : Scalar R}
    {t : X} (ha : MArr r c (fun i j => G1 (f i j)) a) (hs : G2 t s) :
    Go.Post (a.mul (.s s)) (EArr r c (fun i j => G3 (f i j * t))) := by
  have hca : ∀ i j x, G1 (f i j) x → x.check = .ok () := fun i j => hG.checkL
  have hS : ∀ i j, i < r → j < c → Stable (G3 (f i j * t)) := fun _ _ _ _ => hG.sum.stable _
  cases a with
  | k rows =>
    cases s with
    | k d => exact (kmMul_k_ok hr hc ha d fun i j x _ _ hx => hG.num hx hs).post.mono fun _ h => h.1
    | poly p =>
      exact (kmMul_poly_ok hr hc ha (hG.checkR _ hs) hS fun i j x _ _ hx =>
        hG.mul (x := .poly (kToPoly x)) (hG.polyL (.k x) hx) hs).post.mono fun _ h => h.1
    | _ => exact Go.post_bind' fun _ _ => Go.post_bind' fun _ _ => Go.post_bind' fun _ _ =>
        Go.post_bind' fun _ _ => Go.post_throw
  | v rows =>
    cases s with
    | k d =>
      refine Go.post_bind' fun _ _ => Go.post_bind' fun _ _ => Go.post_bind' fun _ _ =>
        Go.post_bind' fun _ _ => Go.post_bind' fun _ _ => ?_
      refine Go.Post.bind (P := Arr r c fun i j m => G3 (f i j * t) (.mono m))
        (Arr.mapM_post (Arr.map_iff.mp ha) fun i j v _ _ hv => ?_) fun ms hms => ?_
      · refine (hG.mul (x := .var v) hv hs).bindPost fun x hx => ?_
        cases x with
        | mono m => exact Go.post_pure hx
        | _ => exact Go.post_throw
      · exact EArr.simpPost (e := .m (.m ms)) hr (fun i j => hG.sum.stable _)
          (earr_m_iff.mpr (Arr.map_iff.mpr hms))
    | _ => exact Go.post_bind' fun _ _ => Go.post_bind' fun _ _ => Go.post_bind' fun _ _ =>
        Go.post_bind' fun _ _ => Go.post_bind' fun _ _ => Go.post_throw
  | m rows =>
    cases s with
    | k d =>
      exact (mmMul_k_ok hr ha hca fun i j m _ _ hm => hG.mono hm hs).post.mono fun _ h => h.1
    | _ => exact Go.post_bind' fun _ _ => Go.post_bind' fun _ _ => Go.post_bind' fun _ _ =>
        Go.post_bind' fun _ _ => Go.post_bind' fun _ _ => Go.post_throw
  | p rows =>
    cases s with
    | k d =>
      exact (pmMul_k_ok hr hc ha hca hS fun i j p _ _ hp => hG.mul (x := .poly p) hp hs).post.mono
        fun _ h => h.1
    | _ => exact Go.post_bind' fun _ _ => Go.post_bind' fun _ _ => Go.post_bind' fun _ _ =>
        Go.post_bind' fun _ _ => Go.post_bind' fun _ _ => Go.post_throw

/-- A vector times a scalar. -/
theorem Vec.mulScalar_post (hG : MulSem G1 G2 G3) (hn : 0 < n) {a : Vec R} {s : Scalar R} {t : X}
    {f : ℕ → X} (ha : VArr n (fun i => G1 (f i)) a) (hs : G2 t s) :
    Go.Post (a.mulScalar s) (EArr n 1 (fun i _ => G3 (f i * t))) := by
  by_cases h : a.Scalable s
  · exact (Vec.mulScalar_ok (Q := fun i => G3 (f i * t)) hn ha (fun i => hG.checkL)
      (hG.checkR _ hs) h (fun _ _ => hG.sum.stable _)
      fun i x _ hx => hG.mul hx hs).post.mono fun _ h => h.1
  · cases a with
    | p l =>
      cases s with
      | k d => exact absurd (fun _ => Or.inl ⟨d, rfl⟩) h
      | poly p => exact absurd (fun _ => Or.inr ⟨p, rfl⟩) h
      | _ => exact Go.post_bind' fun _ _ => Go.post_bind' fun _ _ => Go.post_bind' fun _ _ =>
          Go.post_bind' fun _ _ => Go.post_throw
    | _ => exact absurd (by simp [Vec.Scalable]) h

/-- An array times a scalar. -/
theorem Expr.mul_scalar_post (hG : MulSem G1 G2 G3) (hr : 0 < r) (hc : 0 < c) {a : Expr R} {s : Scalar R}
    {t : X} (ha : EArr r c (fun i j => G1 (f i j)) a) (hs : G2 t s) :
    Go.Post (a.mul (.s s)) (EArr r c (fun i j => G3 (f i j * t))) := by
  cases a with
  | s x =>
    obtain ⟨rfl, rfl⟩ := earr_s_dims ha
    have h : (Expr.s x).mul (.s s) = (do return .s (← x.mul s)) := by cases x <;> rfl
    rw [h]
    exact (hG.mul (earr_s_iff.mp ha) hs).bindPost fun y hy => Go.post_pure (earr_s hy)
  | v a =>
    obtain rfl := earr_v_cols hr ha
    exact (Vec.mulScalar_post hG hr (earr_v_iff.mp ha) hs).mono fun e he =>
      EArr.ofCol (Q := fun i j => G3 (f i j * t)) he
  | m a => exact Mat.mul_scalar_post hG hr hc ha hs

/-- A scalar times an array. -/
theorem Expr.scalar_mul_post (hG : MulSem G1 G2 G3) (hG' : MulSem G2 G1 G3) (hr : 0 < r) (hc : 0 < c)
    {b : Expr R} {s : Scalar R}
    {t : X} (hs : G1 t s) (hb : EArr r c (fun i j => G2 (g i j)) b) :
    Go.Post ((Expr.s s).mul b) (EArr r c (fun i j => G3 (t * g i j))) := by
  have hsw : Go.Post (b.mul (.s s)) (EArr r c (fun i j => G3 (t * g i j))) :=
    (Expr.mul_scalar_post hG' hr hc hb hs).mono fun e he => he.mono fun i j a _ _ h => by
      rwa [mul_comm] at h
  have hS : ∀ i j, Stable (G3 (t * g i j)) := fun i j => hG.sum.stable _
  cases b with
  | s y =>
    obtain ⟨rfl, rfl⟩ := earr_s_dims hb
    have h : (Expr.s s).mul (.s y) = (do return .s (← s.mul y)) := by cases s <;> rfl
    rw [h]
    exact (hG.mul hs (earr_s_iff.mp hb)).bindPost fun y hy => Go.post_pure (earr_s hy)
  | v b =>
    cases s with
    | k d => exact Go.post_bind' fun _ _ => Go.post_throw
    | var x =>
      obtain rfl := earr_v_cols hr hb
      exact (Var.mulVec_ok (Q := fun i => G3 (t * g i 0)) hr
        (Var.check_iff.mp (hG.checkL _ hs)) (earr_v_iff.mp hb) (fun i => hG.checkR)
        (fun _ _ => hG.sum.stable _) fun i y _ hy => hG.mul' hs hy).post.mono fun e he =>
          EArr.ofCol (Q := fun i j => G3 (t * g i j)) he.1
    | mono m => exact Go.post_bind' fun _ _ => Go.post_bind' fun _ _ => Go.post_bind' fun _ _ =>
        Go.post_bind' fun _ _ => Go.post_throw
    | poly p => exact Go.post_bind' fun _ _ => Go.post_bind' fun _ _ =>
        hsw.bind fun e he => he.simpPost hr hS
  | m b =>
    cases s with
    | k d => exact Go.post_bind' fun _ _ => Go.post_throw
    | poly p => exact Go.post_bind' fun _ _ => Go.post_bind' fun _ _ =>
        hsw.bind fun e he => he.simpPost hr hS
    | _ => exact Go.post_bind' fun _ _ => Go.post_bind' fun _ _ => Go.post_bind' fun _ _ =>
        Go.post_bind' fun _ _ => Go.post_throw

/-- A column times a column of length one. -/
theorem Vec.mul_vec_post (hG : MulSem G1 G2 G3) (hr : 0 < r) {a b : Vec R} {t : X} {f : ℕ → X}
    (ha : VArr r (fun i => G1 (f i)) a) (hb : VArr 1 (fun _ => G2 t) b) :
    Go.Post (a.mul (.v b)) (EArr r 1 (fun i _ => G3 (f i * t))) := by
  have hS : ∀ i _ : ℕ, Stable (G3 (f i * t)) := fun i _ => hG.sum.stable _
  have key : ∀ s, G2 t s → Go.Post (a.mulScalar s >>= Expr.asSimplified)
      (EArr r 1 (fun i _ => G3 (f i * t))) :=
    fun s hs => (Vec.mulScalar_post hG hr ha hs).bind fun e he => he.simpPost hr hS
  have hat : Go.Ok (b.atVec 0) (G2 t) := hb.atVec (fun _ => hG.checkR) (i := 0) (by omega)
  refine Go.post_bind' fun _ _ => Go.post_bind' fun _ _ => Go.post_bind' fun _ _ =>
    Go.post_bind' fun _ _ => Go.post_bind' fun _ _ => ?_
  cases a with
  | v l => cases b <;> exact hat.bindPost fun s hs => key s hs
  | k l =>
    cases b with
    | k l' => exact ((LArr.map_iff.mp hb).goGet (i := 0) (by omega)).bindPost fun s hs => key _ hs
    | v l' => exact ((LArr.map_iff.mp hb).goGet (i := 0) (by omega)).bindPost fun s hs => key _ hs
    | _ => exact Go.post_throw
  | m l => cases b <;> exact Go.post_throw
  | p l =>
    cases b with
    | p l' => exact ((LArr.map_iff.mp hb).goGet (i := 0) (by omega)).bindPost fun s hs => key _ hs
    | _ => exact Go.post_throw

/-- The first `k` terms of entry `(i, j)` of a product. -/
def psumG (f g : ℕ → ℕ → X) (i j : ℕ) : ℕ → X
  | 0 => 0
  | k + 1 => psumG f g i j k + f i k * g k j

theorem psumG_succ (f g : ℕ → ℕ → X) (i j k : ℕ) :
    psumG f g i j (k + 1) = psumG f g i j k + f i k * g k j := rfl

theorem MulSem.one (hG : MulSem G1 G2 G3) {i j : ℕ} {x : Scalar R} (h : G3 (f i 0 * g 0 j) x) :
    G3 (psumG f g i j 1) x := hG.zadd h

theorem MulSem.start (hG : MulSem G1 G2 G3) (i j : ℕ) : G3 (psumG f g i j 0) (.k GoNum.zero) := hG.zero

theorem MulSem.step (hG : MulSem G1 G2 G3) {i j k : ℕ} {acc t : Scalar R}
    (h : G3 (psumG f g i j k) acc) (ht : G3 (f i k * g k j) t) :
    Go.Ok (acc.plus t) (G3 (psumG f g i j (k + 1))) := by
  rw [psumG_succ]
  exact hG.sum.add h ht

/-- Several rows of monomials times a column of variables. -/
theorem mmMul_vec_post (hG : MulSem G1 G2 G3) (hr : 1 < r) (hn : 0 < n) {rows : List (List (Mono R))}
    (ha : MArr r n (fun i j => G1 (f i j)) (.m rows)) {l : List (Var R)}
    (hb : VArr n (fun i => G2 (g i 0)) (.v l)) :
    Go.Post (mmMul rows (.v (.v l))) (EArr r 1 (fun i _ => G3 (psumG f g i 0 n))) := by
  have hr0 : 0 < r := by omega
  have hne : r ≠ 1 := by omega
  have hca : ∀ i j x, G1 (f i j) x → x.check = .ok () := fun i j => hG.checkL
  have hcb : ∀ i x, G2 (g i 0) x → x.check = .ok () := fun i => hG.checkR
  unfold mmMul
  simp only [ha.check hr0 hca, Expr.check, hb.check hn hcb, (Arr.map_iff.mp ha).rowDims hr0,
    Expr.dims, hb.dims hn hcb, Go.ok_bind, checkDimMul_inner, if_neg hne]
  refine Go.Post.bind (LArr.mapM_post (Q' := fun i => G3 (psumG f g i 0 n)) (Arr.map_iff.mp ha)
    fun i row hi hrow => ?_) fun q hq => (concretizeVec_ok hq hr0 fun _ _ => hG.sum.stable _).bindPost
      fun v hv => Go.post_pure (earr_v_iff.mpr hv)
  have hpr : ∀ {k x v}, G1 (f i k) (.mono x) → G2 (g k 0) (.var v) →
      Go.Ok (x.toPoly.mul (.var v)) (G3 (f i k * g k 0)) := fun hx hv =>
    hG.mul (x := .poly _) (hG.polyL _ hx) hv
  unfold mmRowMul
  refine (hrow.goGet (i := 0) hn).bindPost fun m0 hm0 => ?_
  refine ((LArr.map_iff.mp hb).goGet (i := 0) hn).bindPost fun v0 hv0 => ?_
  refine (hpr hm0 hv0).bindPost fun init hinit => ?_
  obtain ⟨c', rfl⟩ : ∃ c', n = c' + 1 := ⟨n - 1, by omega⟩
  have hdrop : LArr c' (fun k (mj : Mono R × ℕ) => G1 (f i (k + 1)) (.mono mj.1) ∧ mj.2 = k + 1)
      (row.zipIdx.drop 1) := by
    have hz := LArr.zipIdx hrow
    cases hz0 : row.zipIdx with
    | nil => rw [hz0] at hz; exact absurd hz.1 (by simp)
    | cons a t =>
      rw [hz0] at hz
      exact (LArr.cons_iff.mp hz).2
  refine LArr.foldlM_post (I := fun k => G3 (psumG f g i 0 (k + 1))) hdrop (hG.one hinit)
    fun k acc mj hk hacc hmj => ?_
  obtain ⟨h1, h2⟩ := hmj
  rw [h2]
  refine ((LArr.map_iff.mp hb).goGet (i := k + 1) (by omega)).bindPost fun v hv => ?_
  refine (hpr h1 hv).bindPost fun t ht => ?_
  refine (hG.step hacc ht).bindPost fun s hs => ?_
  cases s with
  | poly p => exact Go.post_pure hs
  | _ => exact Go.post_throw

/-- A matrix times a column. -/
theorem Mat.mul_vec_post (hG : MulSem G1 G2 G3) (hr : 0 < r) (hn : 0 < n) {a : Mat R} {b : Vec R}
    (ha : MArr r n (fun i j => G1 (f i j)) a) (hb : VArr n (fun i => G2 (g i 0)) b) :
    Go.Post (a.mul (.v b)) (EArr r 1 (fun i _ => G3 (psumG f g i 0 n))) := by
  have hca : ∀ i j x, G1 (f i j) x → x.check = .ok () := fun i j => hG.checkL
  have hcb : ∀ i x, G2 (g i 0) x → x.check = .ok () := fun i => hG.checkR
  have one : ∀ {e : Expr R}, r = 1 → (∃ s, e = .s s ∧ G3 (psumG f g 0 0 n) s) →
      EArr r 1 (fun i _ => G3 (psumG f g i 0 n)) e := by
    rintro e rfl ⟨s, rfl, hs⟩
    exact earr_s hs
  cases a with
  | k rows =>
    cases b with
    | v l =>
      by_cases h : r = 1
      · subst h
        exact (kmMul_vec_one_ok hn ha hb hcb (I := fun k => G3 (psumG f g 0 0 k)) (hG.start _ _)
          (hG.sum.stable _) fun k acc x v _ hacc hx hv =>
            (hG.mul' (y := .var v) hx hv).mono fun t ht => hG.step hacc ht).post.mono
          fun _ h => one rfl h
      · exact (kmMul_vec_ok (by omega) hn ha hb hcb (T := fun i k => G3 (f i k * g k 0))
          (I := fun i k => G3 (psumG f g i 0 k)) (fun _ _ => hG.start _ _)
          (fun _ _ _ _ => hG.sum.stable _) (fun _ _ _ _ => hG.sum.stable _)
          (fun i k x v _ _ hx hv => hG.mul hx hv)
          fun i k acc t _ _ hacc ht => hG.step hacc ht).post.mono fun _ h => h.1
    | _ => exact Go.post_bind' fun _ _ => Go.post_bind' fun _ _ => Go.post_bind' fun _ _ =>
        Go.post_bind' fun _ _ => Go.post_throw
  | v rows =>
    cases b with
    | k l =>
      exact (vmMul_kvec_ok hr ha hca hb (I := fun i k => G3 (psumG f g i 0 k))
        (fun _ _ => hG.start _ _) (fun _ _ => hG.sum.stable _)
        fun i k acc v x _ _ hacc hv hx => (hG.mul (x := .var v) hv hx).mono fun t ht =>
          hG.step hacc ht).post.mono fun _ h => h.1
    | v l =>
      refine (vmMul_vec_ok hr hn ha hca hb hcb (T := fun i k => G3 (f i k * g k 0))
        (I := fun i k => G3 (psumG f g i 0 k)) (fun _ _ _ _ => hG.sum.stable _)
        (fun _ _ _ _ => hG.sum.stable _) (fun i k x v _ _ hx hv => hG.mul hx hv)
        (fun i t _ ht => ⟨hG.step (hG.start _ _) ht, ?_⟩)
        fun i k acc t _ _ hacc ht => hG.step hacc ht).post.mono fun _ h => h.1
      show Go.Ok _ (G3 (0 + f i 0 * g 0 0))
      rw [add_comm]
      exact hG.sum.add ht hG.zero
    | _ => exact Go.post_bind' fun _ _ => Go.post_bind' fun _ _ => Go.post_bind' fun _ _ =>
        Go.post_bind' fun _ _ => Go.post_bind' fun _ _ => Go.post_throw
  | m rows =>
    cases b with
    | v l =>
      by_cases h : r = 1
      · subst h
        exact (mmMul_vec_one_ok hn ha hca hb hcb (I := fun k => G3 (psumG f g 0 0 k)) (hG.start _ _)
          (hG.sum.stable _) fun k acc x v _ hacc hx hv =>
            (hG.mul (x := .mono x) hx hv).mono fun t ht => hG.step hacc ht).post.mono
          fun _ h => one rfl h
      · exact mmMul_vec_post hG (by omega) hn ha hb
    | _ => exact Go.post_bind' fun _ _ => Go.post_bind' fun _ _ => Go.post_bind' fun _ _ =>
        Go.post_bind' fun _ _ => Go.post_bind' fun _ _ => Go.post_throw
  | p rows =>
    cases b with
    | v l =>
      exact (pmMul_vec_ok hr hn ha hca hb hcb (I := fun i k => G3 (psumG f g i 0 k))
        (fun _ _ => hG.start _ _) (fun _ _ => hG.sum.stable _)
        fun i k acc p v _ _ hacc hp hv => (hG.mul (x := .poly p) hp hv).mono fun t ht =>
          hG.step hacc ht).post.mono fun _ h => h.1
    | _ => exact Go.post_bind' fun _ _ => Go.post_bind' fun _ _ => Go.post_bind' fun _ _ =>
        Go.post_bind' fun _ _ => Go.post_bind' fun _ _ => Go.post_throw

/-- Arrays of fitting shapes. -/
theorem Expr.mul_post (hG : MulSem G1 G2 G3) (hG' : MulSem G2 G1 G3) (hr : 0 < r) (hn : 0 < n)
    (hc : 0 < c) {a b : Expr R} (ha : EArr r n (fun i j => G1 (f i j)) a)
    (hb : EArr n c (fun i j => G2 (g i j)) b) :
    Go.Post (a.mul b) (EArr r c (fun i j => G3 (psumG f g i j n))) := by
  cases a with
  | s x =>
    obtain ⟨rfl, rfl⟩ := earr_s_dims ha
    refine (Expr.scalar_mul_post hG hG' hr hc (earr_s_iff.mp ha) hb).mono fun e he =>
      he.mono fun i j a hi _ h => ?_
    obtain rfl : i = 0 := by omega
    exact hG.one h
  | v a =>
    obtain rfl := earr_v_cols hr ha
    cases b with
    | s y =>
      obtain ⟨-, rfl⟩ := earr_s_dims hb
      refine (Expr.mul_scalar_post hG hr hc ha (earr_s_iff.mp hb)).mono fun e he =>
        he.mono fun i j a _ hj h => ?_
      obtain rfl : j = 0 := by omega
      exact hG.one h
    | v b =>
      obtain rfl := earr_v_cols hn hb
      refine (Vec.mul_vec_post hG hr (t := g 0 0) (earr_v_iff.mp ha)
        ((earr_v_iff.mp hb).mono fun i a hi h => ?_)).mono fun e he => he.mono fun i j a _ hj h => ?_
      · obtain rfl : i = 0 := by omega
        exact h
      · obtain rfl : j = 0 := by omega
        exact hG.one h
    | m b => exact Go.post_bind' fun _ _ => Go.post_bind' fun _ _ => Go.post_bind' fun _ _ =>
        Go.post_bind' fun _ _ => Go.post_bind' fun _ _ => Go.post_throw
  | m a =>
    cases b with
    | s y =>
      obtain ⟨rfl, rfl⟩ := earr_s_dims hb
      refine (Expr.mul_scalar_post hG hr hc ha (earr_s_iff.mp hb)).mono fun e he =>
        he.mono fun i j a _ hj h => ?_
      obtain rfl : j = 0 := by omega
      exact hG.one h
    | v b =>
      obtain rfl := earr_v_cols hn hb
      exact (Mat.mul_vec_post hG hr hn ha (earr_v_iff.mp hb)).mono fun e he =>
        EArr.ofCol (Q := fun i j => G3 (psumG f g i j n)) he
    | m b =>
      exact (Mat.mul_mat_ok hr hn hc ha (fun i j => hG.checkL) hb
        (fun i j => hG.checkR) (I := fun i j k => G3 (psumG f g i j k))
        (fun _ _ _ _ => hG.start _ _) (fun _ _ _ _ => hG.sum.stable _)
        fun i j k acc x y _ _ _ hacc hx hy => (hG.mul hx hy).mono fun t ht =>
          hG.step hacc ht).post.mono fun _ h => h.1

/-! ## Minus -/

/-- `Multiply` by a `float64`. -/
theorem Expr.mulF64_post (hG : MulSem G1 G2 G3) (hr : 0 < r) (hc : 0 < c) {a : Expr R} {d : R} {t : X}
    (ha : EArr r c (fun i j => G1 (f i j)) a) (hs : G2 t (.k d)) :
    Go.Post (a.mulF64 d) (fun e => EArr r c (fun i j => G3 (f i j * t)) e ∧
      ((∃ x, a = .s x) → ∃ y, e = .s y)) := by
  have hS : ∀ i j, Stable (G3 (f i j * t)) := fun i j => hG.sum.stable _
  have hm := Expr.mul_scalar_post hG hr hc ha hs
  cases a with
  | s x =>
    obtain ⟨rfl, rfl⟩ := earr_s_dims ha
    refine (Scalar.mulF64_ok (hG.sum.stable _) (hG.mul (earr_s_iff.mp ha) hs)).post.mono ?_
    rintro e ⟨y, rfl, hy⟩
    exact ⟨earr_s hy, fun _ => ⟨y, rfl⟩⟩
  | v a =>
    obtain rfl := earr_v_cols hr ha
    exact (Vec.mulF64_ok (Q := fun i => G3 (f i 0 * t)) hr (earr_v_iff.mp ha)
      (fun i => hG.checkL) (fun _ _ => hG.sum.stable _)
      fun i x _ hx => hG.mul hx hs).post.mono fun e he =>
        ⟨EArr.ofCol (Q := fun i j => G3 (f i j * t)) he.1, fun ⟨x, h⟩ => by cases h⟩
  | m a =>
    refine Go.Post.mono (P := EArr r c (fun i j => G3 (f i j * t))) ?_
      fun e he => ⟨he, fun ⟨x, h⟩ => by cases h⟩
    cases a with
    | k rows => exact hm
    | m rows => exact hm
    | v rows => exact hm.bind fun e he => he.simpPost hr hS
    | p rows => exact hm.bind fun e he => he.simpPost hr hS

theorem Expr.minus_of_gen {a b : Expr R} {Q : Expr R → Prop} (h : Go.Post (a.minusGen b) Q) :
    Go.Post (a.minus b) Q := by
  cases a with
  | s x =>
    cases x with
    | k d => exact Go.post_bind' fun _ _ => h
    | poly p => exact Go.post_bind' fun _ _ => Go.post_bind' fun _ _ => h
    | _ => exact Go.post_bind' fun _ _ => Go.post_bind' fun _ _ => Go.post_bind' fun _ _ =>
        Go.post_bind' fun _ _ => Go.post_bind' fun _ _ => h
  | v x =>
    cases x with
    | k l =>
      refine Go.post_bind' fun _ _ => Go.post_bind' fun _ _ => Go.post_bind' fun _ _ => ?_
      cases b with
      | m b => exact Go.post_throw
      | _ => exact h
    | _ => exact Go.post_bind' fun _ _ => Go.post_bind' fun _ _ => Go.post_bind' fun _ _ =>
        Go.post_bind' fun _ _ => Go.post_bind' fun _ _ => h
  | m x => exact Go.post_bind' fun _ _ => Go.post_bind' fun _ _ => Go.post_bind' fun _ _ =>
        Go.post_bind' fun _ _ => Go.post_bind' fun _ _ => h

variable {G K : X → Scalar R → Prop} {κ : X}

/-- Two arrays of the same shape; `κ` is the meaning of the factor `-1`. -/
theorem Expr.minus_post (hG : MulSem G K G) (hk : K κ (.k negOne)) (hr : 0 < r) (hc : 0 < c)
    {a b : Expr R} (ha : EArr r c (fun i j => G (f i j)) a) (hb : EArr r c (fun i j => G (g i j)) b) :
    Go.Post (a.minus b) (EArr r c (fun i j => G (f i j + g i j * κ))) :=
  Expr.minus_of_gen ((Expr.mulF64_post hG hr hc hb hk).bind fun _ he =>
    Expr.plus_post hG.sum hr hc ha he.1)

theorem Expr.minus_scalar_post (hG : MulSem G K G) (hk : K κ (.k negOne)) (hr : 0 < r) (hc : 0 < c)
    {a : Expr R} {s : Scalar R} {t : X} (ha : EArr r c (fun i j => G (f i j)) a) (hs : G t s) :
    Go.Post (a.minus (.s s)) (EArr r c (fun i j => G (f i j + t * κ))) := by
  refine Expr.minus_of_gen ((Expr.mulF64_post hG (f := fun _ _ => t) Nat.one_pos Nat.one_pos
    (earr_s hs) hk).bind ?_)
  rintro e ⟨h1, h2⟩
  obtain ⟨y, rfl⟩ := h2 ⟨s, rfl⟩
  exact Expr.plus_scalar_post hG.sum hr hc ha (earr_s_iff.mp h1)

theorem Expr.scalar_minus_post (hG : MulSem G K G) (hk : K κ (.k negOne)) (hr : 0 < r) (hc : 0 < c)
    {b : Expr R} {s : Scalar R} {t : X} (hs : G t s) (hb : EArr r c (fun i j => G (g i j)) b) :
    Go.Post ((Expr.s s).minus b) (EArr r c (fun i j => G (t + g i j * κ))) :=
  Expr.minus_of_gen ((Expr.mulF64_post hG hr hc hb hk).bind fun _ he =>
    Expr.scalar_plus_post hG.sum hr hc hs he.1)

end

theorem psumG_sum {X : Type} [CommSemiring X] (f g : ℕ → ℕ → X) (i j k : ℕ) :
    psumG f g i j k = ∑ l ∈ Finset.range k, f i l * g l j := by
  induction k with
  | zero => rfl
  | succ k ih => rw [psumG_succ, ih, Finset.sum_range_succ]

/-! ## The two meanings -/

section
variable {R : Type} [GoNum R] {P : Var R → Prop} {D : Set (ℕ →₀ ℕ)}

/-- Well-formedness alone. -/
def GoodU (P : Var R → Prop) (_ : PUnit.{1}) (x : Scalar R) : Prop := Good P Set.univ x

theorem goodL_cons {m : Mono R} {p : Poly R} (hm : Good P D (.mono m)) (hp : Good P D (.poly p)) :
    GoodL P D (m :: p.monos) := by
  intro q hq
  rcases List.mem_cons.mp hq with rfl | hq
  · exact hm
  · exact hp.2 q hq

theorem simplify_cons {m : Mono R} {p : Poly R} (hm : Good P D (.mono m)) (hp : Good P D (.poly p)) :
    ∃ q, Poly.simplify ⟨m :: p.monos⟩ = .ok q := by
  obtain ⟨q, hq, -⟩ := Poly.simplify_ok (p := ⟨m :: p.monos⟩) (by simp) (goodL_cons hm hp)
  exact ⟨q, hq⟩

theorem addSem_good : AddSem (GoodU (R := R) P) where
  stable _ := stable_good
  add hx hy := Scalar.plus_good hx hy
  scale _ := trivial
  num _ _ := trivial
  cons hm hp := ⟨simplify_cons hm hp, by simp, goodL_cons hm hp⟩

theorem mulSem_good : MulSem (GoodU (R := R) P) (GoodU P) (GoodU P) where
  left h := ⟨Good.check h, good_toPoly h⟩
  right h := Good.check h
  sum := addSem_good
  zero := trivial
  zadd h := h
  mul hx hy := Scalar.mul_good prodIn_univ hx hy
  mul' hx hy := Scalar.mul_good prodIn_univ hy hx
  num _ _ := trivial
  mono hm _ := Mono.mulK_good hm _

end

section
variable {R : Type} [Field R] [LinearOrder R] {P : Var R → Prop} {D D1 D2 D3 : Set (ℕ →₀ ℕ)}

theorem addSem_den (hD : RearrFree D) : AddSem (GoodDen (R := R) P D) where
  stable f := stable_goodDen hD f
  add hx hy := goodDen_plus hD hx hy
  scale {f d} h := ⟨trivial, by
    rw [← h.2]
    simp [Scalar.den_k]⟩
  num {f g x d} hx hd := ⟨trivial, by
    rw [← hx.2, ← hd.2]
    simp [Scalar.den_k, add_comm]⟩
  cons {f g m p} hm hp := ⟨simplify_cons hm.1 hp.1, ⟨by simp, goodL_cons hm.1 hp.1⟩, by
    rw [← hm.2, ← hp.2]
    rfl⟩

theorem mulSem_den (hp : ProdIn D1 D2 D3) (hD : RearrFree D3) :
    MulSem (GoodDen (R := R) P D1) (GoodDen P D2) (GoodDen P D3) where
  left h := ⟨h.1.check, good_toPoly h.1, (toPoly_den _).trans h.2⟩
  right h := h.1.check
  sum := addSem_den hD
  zero := ⟨trivial, MvPolynomial.C_0⟩
  zadd h := by rwa [zero_add]
  mul hx hy := goodDen_mul hp hD hx hy
  mul' {f g x y} hx hy := by
    rw [mul_comm f g]
    exact goodDen_mul hp.symm hD hy hx
  num {f g x d} hx hd := ⟨trivial, by
    rw [← hx.2, ← hd.2]
    simp [Scalar.den_k, mul_comm]⟩
  mono {f g m d} hm hd := ⟨(Mono.mulK_good hm.1 d).weaken (fun _ h => h) hp.left, by
    rw [← hm.2, ← hd.2]
    exact Mono.mulK_den m d⟩

end

end Verif
