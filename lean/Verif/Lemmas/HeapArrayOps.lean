import Verif.Lemmas.HeapArrayRef

/-!
# Vector and matrix operations on memory refine those on values
-/

set_option linter.unusedSectionVars false

namespace Verif

open GoNum

variable {R : Type} [GoNum R] {lo : ℕ}

/-! ## Vector Plus and Multiply -/

theorem aVecPlusTemplate_ref {a : AVec R} {e : AExpr R} {x : Vec R} {y : Expr R} {h : Heap R}
    (ha : Rep lo LV h.exps a x) (he : Rep lo LE h.exps e y) :
    Ref lo LE (aVecPlusTemplate a e) h (vecPlusTemplate x y) := by
  cases e with
  | s b =>
    obtain ⟨s, rfl, hb⟩ := he.es_inv
    exact Ref.bind (Ref.traverse _ ha.entriesV fun _ _ _ hp h1 => hPlus_ref h1 (hb.mono hp)) fun _ _ _ _ _ ho =>
      aConcretizeV_ref ho
  | v b =>
    obtain ⟨s, rfl, hb⟩ := he.ev_inv
    refine Ref.bind (Ref.traverse _ (ha.entriesV.zipIdx _ 0) fun p q _ hp h1 => ?_) fun _ _ _ _ _ ho =>
      aConcretizeV_ref ho
    obtain ⟨h2, h3⟩ := h1.idx_inv
    rw [h2]
    exact Ref.bind (aAtVec_ref (hb.mono hp) _) fun _ _ _ hp' _ ho => hPlus_ref (h3.mono hp') ho
  | m b =>
    obtain ⟨s, rfl, hb⟩ := he.em_inv
    exact Ref.panic

theorem aVecMulTemplate_ref {a : AVec R} {b : HScalar R} {x : Vec R} {y : Scalar R} {h : Heap R}
    (ha : Rep 0 LV h.exps a x) (hb : Rep 0 LS h.exps b y) :
    Ref lo LE (aVecMulTemplate a b) h (vecMulTemplate x (.s y)) :=
  Ref.bind (Ref.traverse _ ha.entriesV fun _ _ _ hp h1 => hMul_ref h1 (hb.mono hp)) fun _ _ _ _ _ ho =>
    aConcretizeV_ref ho

theorem aVecPlus_ref {a : AVec R} {e : AExpr R} {x : Vec R} {y : Expr R} {h : Heap R}
    (ha : Rep lo LV h.exps a x) (he : Rep lo LE h.exps e y) : Ref lo LE (aVecPlus a e) h (x.plus y) := by
  refine vVal_bind ha fun _ _ => ?_
  refine eVal_bind he fun _ _ => ?_
  refine vVal_bind ha fun _ _ => ?_
  refine eVal_bind he fun _ _ => ?_
  refine pGo_bind fun _ _ => ?_
  exact Ref.bind (aVecPlusTemplate_ref ha he) fun _ _ _ _ _ ho => aSimplified_ref ho

/-- The kinds of scalars a vector cannot be multiplied by. -/
def Vec.rejects : Vec R → Scalar R → Bool
  | .p _, .var _ => true
  | .p _, .mono _ => true
  | _, _ => false

theorem rejects_eq {h : ExpHeap} {a : AVec R} {b : HScalar R} {x : Vec R} {y : Scalar R} (ha : Rep lo LV h a x)
    (hb : Rep lo LS h b y) : a.rejects b = x.rejects y := by
  rw [← ha.load, ← hb.load]
  cases a <;> cases b <;> rfl

theorem mulScalar_eq (x : Vec R) (y : Scalar R) : x.mulScalar y =
    x.check >>= fun _ => y.check >>= fun _ => x.dims >>= fun d => checkDimMul d (1, 1) >>= fun _ =>
      if x.rejects y then .error .unsupported else vecMulTemplate x (.s y) >>= Expr.asSimplified := by
  cases x <;> cases y <;> rfl

theorem aVecMulScalar_ref {a : AVec R} {b : HScalar R} {x : Vec R} {y : Scalar R} {h : Heap R}
    (ha : Rep 0 LV h.exps a x) (hb : Rep 0 LS h.exps b y) : Ref lo LE (aVecMulScalar a b) h (x.mulScalar y) := by
  rw [mulScalar_eq]
  unfold aVecMulScalar
  refine vVal_bind ha fun _ _ => ?_
  refine hCheck_bind hb ?_
  refine vVal_bind ha fun _ _ => ?_
  refine pGo_bind fun _ _ => ?_
  rw [rejects_eq ha hb]
  refine ite_ref (fun _ => Ref.panic) fun _ => ?_
  exact Ref.bind (aVecMulTemplate_ref ha hb) fun _ _ _ _ _ ho => aSimplified_ref ho

/-- The entry of a vector argument that is used. -/
def vecMulArg : Vec R → Vec R → Go (Scalar R)
  | .k _, .k l => goGet (l.map Scalar.k) 0
  | .k _, .v l => goGet (l.map Scalar.var) 0
  | .v _, b => b.atVec 0
  | .p _, .p l => goGet (l.map Scalar.poly) 0
  | _, _ => .error .unsupported

theorem vecMul_eq (x y : Vec R) : x.mul (.v y) =
    x.check >>= fun _ => y.check >>= fun _ => x.dims >>= fun d => y.dims >>= fun d' => checkDimMul d d' >>= fun _ =>
      vecMulArg x y >>= fun s => x.mulScalar s >>= Expr.asSimplified := by
  have hg : ∀ {α : Type} (f : α → Scalar R) (l : List α) (g : Scalar R → Go (Expr R)),
      (goGet (l.map f) 0 >>= g) = goGet l 0 >>= fun a => g (f a) := by
    intro α f l g
    rw [goGet_map]
    cases goGet l 0 <;> rfl
  have ha : ∀ {α : Type} (x : Go α) (f g : α → Go (Expr R)), (∀ a, f a = g a) → (x >>= f) = x >>= g := by
    intro α x f g h
    cases x with
    | ok a => exact h a
    | error e => rfl
  have hs : ∀ {α : Type} (x : Go α) (f : α → Go (Expr R)) (g : Expr R → Go (Expr R)),
      ((x >>= f) >>= g) = x >>= fun a => f a >>= g := by
    intro α x f g
    cases x <;> rfl
  unfold Vec.mul
  dsimp only
  refine ha _ _ _ fun _ => ha _ _ _ fun _ => ha _ _ _ fun _ => ha _ _ _ fun _ => ha _ _ _ fun _ => ?_
  cases x <;> cases y <;> first
    | rfl
    | (unfold vecMulArg; dsimp only; rw [hg, ← hs])

theorem aVecMulArg_ref {a b : AVec R} {x y : Vec R} {h : Heap R}
    (ha : Rep lo LV h.exps a x) (hb : Rep lo LV h.exps b y) : Ref lo LS (aVecMulArg a b) h (vecMulArg x y) := by
  have hx : x = a.load h.exps := ha.load.symm
  have hy : y = b.load h.exps := hb.load.symm
  cases a with
  | k l =>
    subst hx
    cases b with
    | k l' => rw [hb.vk_inv]; exact goGet_ref (Rep.ks l') 0
    | v l' => rw [hb.vv_inv]; exact goGet_ref (Rep.vars' l') 0
    | m l' => subst hy; exact Ref.panic
    | p l' => subst hy; exact Ref.panic
  | v l => subst hx; exact aAtVec_ref hb 0
  | m l => subst hx; subst hy; exact Ref.panic
  | p l =>
    subst hx
    cases b with
    | p l' =>
      obtain ⟨ps, rfl, hp⟩ := hb.vp_inv
      exact goGet_ref (hp.mapList fun _ _ h1 => h1.polyS) 0
    | k l' => subst hy; exact Ref.panic
    | v l' => subst hy; exact Ref.panic
    | m l' => subst hy; exact Ref.panic

theorem aVecMul_ref {a : AVec R} {e : AExpr R} {x : Vec R} {y : Expr R} {h : Heap R}
    (ha : Rep 0 LV h.exps a x) (he : Rep 0 LE h.exps e y) : Ref lo LE (aVecMul a e) h (x.mul y) := by
  cases e with
  | s b =>
    obtain ⟨s, rfl, hb⟩ := he.es_inv
    exact aVecMulScalar_ref ha hb
  | v b =>
    obtain ⟨s, rfl, hb⟩ := he.ev_inv
    rw [vecMul_eq]
    refine vVal_bind ha fun _ _ => ?_
    refine vVal_bind hb fun _ _ => ?_
    refine vVal_bind ha fun _ _ => ?_
    refine vVal_bind hb fun _ _ => ?_
    refine pGo_bind fun _ _ => ?_
    refine Ref.bind0 (aVecMulArg_ref ha hb) fun _ _ _ hp _ ho => ?_
    exact Ref.bind (aVecMulScalar_ref (ha.mono hp) ho) fun _ _ _ _ _ ho => aSimplified_ref ho
  | m b =>
    obtain ⟨s, rfl, hb⟩ := he.em_inv
    refine vVal_bind ha fun _ _ => ?_
    refine mVal_bind hb fun _ _ => ?_
    refine vVal_bind ha fun _ _ => ?_
    refine mVal_bind hb fun _ _ => ?_
    exact pGo_bind fun _ _ => Ref.panic

/-! ## Matrix Plus -/

theorem aMatPlusTemplate_ref {a b : AMat R} {x y : Mat R} {h : Heap R}
    (ha : Rep lo LMt h.exps a x) (hb : Rep lo LMt h.exps b y) :
    Ref lo LMt (aMatPlusTemplate a b) h (matPlusTemplate x y) := by
  refine mVal_bind ha fun _ _ => ?_
  refine mVal_bind hb fun _ _ => ?_
  refine mVal_bind ha fun da _ => ?_
  refine mVal_bind hb fun db _ => ?_
  dsimp only
  refine ite_ref (fun _ => Ref.panic) fun _ => ?_
  refine Ref.bind (Ref.each _ fun i h1 e1 => Ref.each _ fun j h2 e2 => ?_) fun _ _ _ _ _ ho => aConcretizeMat_ref ho
  have e3 := e1.trans e2
  refine Ref.bind (aMatAt_ref (ha.mono e3) i j) fun u _ h3 e4 _ hu => ?_
  refine Ref.bind (aMatAt_ref ((hb.mono e3).mono e4) i j) fun w _ h3 e5 _ hw => ?_
  exact hPlus_ref (hu.mono e5) hw

theorem aKmPlus_ref (rows : List (List R)) {e : AExpr R} {y : Expr R} {h : Heap R} (he : Rep lo LE h.exps e y) :
    Ref lo LE (aKmPlus rows e) h (kmPlus rows y) := by
  refine eVal_bind he fun _ _ => ?_
  refine pGo_bind fun d _ => ?_
  refine eVal_bind he fun _ _ => ?_
  refine pGo_bind fun _ _ => ?_
  cases e with
  | s b =>
    obtain ⟨s, rfl, hb⟩ := he.es_inv
    cases b with
    | k c =>
      rw [hb.k_inv]
      exact pGo_bind fun _ _ => pGo_bind fun _ _ => Ref.pure Rep.matk.em
    | var v =>
      rw [hb.var_inv]
      refine Ref.bind (aMatPlusTemplate_ref Rep.matk Rep.matv) fun _ _ _ _ _ ho => ?_
      refine Ref.bind (aMatSimplified_ref ho) fun _ _ _ _ _ ho => ?_
      exact Ref.bind (aMatSimplified_ref ho) fun _ _ _ _ _ ho => Ref.pure ho.em
    | mono m =>
      obtain ⟨n, rfl, hm⟩ := hb.monoL
      exact Ref.panic
    | poly p =>
      obtain ⟨q, rfl, hp⟩ := hb.polyP
      exact Ref.panic
  | v b =>
    obtain ⟨s, rfl, hb⟩ := he.ev_inv
    exact Ref.panic
  | m b =>
    obtain ⟨s, rfl, hb⟩ := he.em_inv
    refine Ref.bind (aMatPlusTemplate_ref Rep.matk hb) fun _ _ _ _ _ ho => ?_
    exact Ref.bind (aMatSimplified_ref ho) fun _ _ _ _ _ ho => Ref.pure ho.em

/-- `.(Polynomial)` on values. -/
def Scalar.asPoly : Scalar R → Go (Poly R)
  | .poly p => .ok p
  | _ => .error .typeAssert

theorem aAsPoly_ref {e : HScalar R} {s : Scalar R} {h : Heap R} (he : Rep lo LS h.exps e s) :
    Ref lo LP (aAsPoly e) h s.asPoly := by
  cases e with
  | k c => rw [he.k_inv]; exact Ref.panic
  | var v => rw [he.var_inv]; exact Ref.panic
  | mono m =>
    obtain ⟨n, rfl, hm⟩ := he.monoL
    exact Ref.panic
  | poly p =>
    obtain ⟨q, rfl, hp⟩ := he.polyP
    exact Ref.pure hp

theorem vmPlusK_eq (rows : List (List (Var R))) (ks : List (List R)) : vmPlusK rows ks =
    (rows.zipIdx.mapM fun ri => ri.1.zipIdx.mapM fun xj => goGet2 ks ri.2 xj.2 >>= fun c =>
      xj.1.plus (.k c) >>= Scalar.asPoly) >>= fun out => .ok (.m (.p out)) := by
  have h1 : (fun s : Scalar R => (match s with
      | .poly p => (pure p : Go (Poly R))
      | _ => throw .typeAssert)) = Scalar.asPoly := by
    funext s
    cases s <;> rfl
  rw [← h1]
  rfl

theorem aVmPlusK_ref (rows : List (List (Var R))) (ks : List (List R)) {h : Heap R} :
    Ref lo LE (aVmPlusK rows ks) h (vmPlusK rows ks) := by
  rw [vmPlusK_eq]
  refine Ref.bind (Ref.each _ fun ri h1 e1 => Ref.each _ fun xj h2 e2 => ?_) fun _ _ _ _ _ ho => Ref.pure ho.matp.em
  refine pGo_bind fun c _ => ?_
  exact Ref.bind (hVarPlus_ref _ Rep.k) fun _ _ _ _ _ ho => aAsPoly_ref ho

theorem aVmPlus_ref (rows : List (List (Var R))) {e : AExpr R} {y : Expr R} {h : Heap R} (he : Rep lo LE h.exps e y) :
    Ref lo LE (aVmPlus rows e) h (vmPlus rows y) := by
  refine mVal_bind (lo1 := 0) Rep.matv fun _ _ => ?_
  refine eVal_bind he fun _ _ => ?_
  refine pGo_bind fun d _ => ?_
  refine eVal_bind he fun _ _ => ?_
  refine pGo_bind fun _ _ => ?_
  cases e with
  | s b =>
    obtain ⟨s, rfl, hb⟩ := he.es_inv
    cases b with
    | k c =>
      rw [hb.k_inv]
      exact pGo_bind fun _ _ => aVmPlusK_ref _ _
    | var v => rw [hb.var_inv]; exact Ref.panic
    | mono m =>
      obtain ⟨n, rfl, hm⟩ := hb.monoL
      exact Ref.panic
    | poly p =>
      obtain ⟨q, rfl, hp⟩ := hb.polyP
      exact Ref.panic
  | v b =>
    obtain ⟨s, rfl, hb⟩ := he.ev_inv
    exact Ref.panic
  | m b =>
    obtain ⟨s, rfl, hb⟩ := he.em_inv
    cases b with
    | k ks => rw [hb.matk_inv]; exact aVmPlusK_ref _ _
    | v l => rw [hb.matv_inv]; exact Ref.panic
    | m l =>
      obtain ⟨n, rfl, hm⟩ := hb.matm_inv
      exact Ref.panic
    | p l =>
      obtain ⟨n, rfl, hm⟩ := hb.matp_inv
      exact Ref.panic

theorem aTerms_ref {e : HScalar R} {s : Scalar R} {h : Heap R} (he : Rep lo LS h.exps e s) :
    Ref lo LM.list (aTerms e) h (.ok s.toPoly.monos) := by
  cases e with
  | k c => rw [he.k_inv]; exact Ref.bindOk (hNew_ref _ h) fun x h' _ hx => Ref.pure (hx.cons Rep.nil)
  | var v => rw [he.var_inv]; exact Ref.bindOk (hNew_ref _ h) fun x h' _ hx => Ref.pure (hx.cons Rep.nil)
  | mono m =>
    obtain ⟨n, rfl, hm⟩ := he.monoL
    exact Ref.pure (hm.cons Rep.nil)
  | poly p =>
    obtain ⟨q, rfl, hp⟩ := he.polyP
    exact Ref.pure hp.monos

theorem aMmPlusEntry_ref {m : HMono R} {l : List (HMono R)} {n : Mono R} {ns : List (Mono R)} {h : Heap R}
    (hm : Rep lo LM h.exps m n) (hl : Rep lo LM.list h.exps l ns) :
    Ref lo LP (aMmPlusEntry m l) h (mmPlusEntry n ns) :=
  Ref.bind (hPolySimplify_ref (hm.cons hl).ofMonos) fun _ _ _ e1 _ _ => Ref.pure ((hm.cons hl).ofMonos.mono e1)

theorem aMmPlus_ref {rows : List (List (HMono R))} {ms : List (List (Mono R))} {e : AExpr R} {y : Expr R} {h : Heap R}
    (hr : Rep lo LM.list.list h.exps rows ms) (he : Rep lo LE h.exps e y) :
    Ref lo LE (aMmPlus rows e) h (mmPlus ms y) := by
  refine mVal_bind hr.matm fun _ _ => ?_
  refine eVal_bind he fun _ _ => ?_
  rw [hr.rowDims]
  refine pGo_bind fun d _ => ?_
  refine eVal_bind he fun _ _ => ?_
  refine pGo_bind fun _ _ => ?_
  cases e with
  | s b =>
    obtain ⟨s, rfl, hb⟩ := he.es_inv
    refine Ref.bind (Ref.traverse2 _ hr fun _ _ h1 e1 h2 => ?_) fun _ _ _ _ _ ho => Ref.pure ho.matp.em
    exact Ref.bindOk (aTerms_ref (hb.mono e1)) fun _ _ e3 h3 => aMmPlusEntry_ref (h2.mono e3) h3
  | v b =>
    obtain ⟨s, rfl, hb⟩ := he.ev_inv
    exact Ref.panic
  | m b =>
    obtain ⟨s, rfl, hb⟩ := he.em_inv
    cases b with
    | k ks => rw [hb.matk_inv]; exact Ref.panic
    | v l => rw [hb.matv_inv]; exact Ref.panic
    | m l =>
      obtain ⟨n, rfl, hm⟩ := hb.matm_inv
      exact Ref.panic
    | p l =>
      obtain ⟨n, rfl, hm⟩ := hb.matp_inv
      refine Ref.bind (Ref.traverse _ (hr.zipIdx _ 0) fun ri si h1 e1 h2 => ?_) fun _ _ _ _ _ ho => Ref.pure ho.matp.em
      obtain ⟨h3, h4⟩ := h2.idx_inv
      refine Ref.traverse _ (h4.zipIdx _ 0) fun mj nj h5 e5 h6 => ?_
      obtain ⟨h7, h8⟩ := h6.idx_inv
      rw [h3, h7]
      exact Ref.bind (goGet2_ref ((hm.mono e1).mono e5) _ _) fun _ _ _ e9 _ h9 => aMmPlusEntry_ref (h8.mono e9) h9.monos

theorem aPmPlusScalar_ref {rows : List (List (HPoly R))} {ps : List (List (Poly R))} {b : HScalar R} {s : Scalar R}
    {h : Heap R} (hr : Rep lo LP.list.list h.exps rows ps) (hb : Rep lo LS h.exps b s) :
    Ref lo LE (aPmPlusScalar rows b) h
      (ps.mapM (·.mapM fun p => p.plus s) >>= fun es => concretizeM es >>= Expr.asSimplified) := by
  refine Ref.bind (Ref.traverse2 _ hr fun _ _ _ e1 h1 => hPolyPlus_ref h1 (hb.mono e1)) fun _ _ _ _ _ ho => ?_
  exact Ref.bind (aConcretizeM_ref ho) fun _ _ _ _ _ ho => aSimplified_ref ho

theorem Go.assoc {α β γ : Type} (x : Go α) (f : α → Go β) (g : β → Go γ) :
    ((x >>= f) >>= g) = x >>= fun a => f a >>= g := by
  cases x <;> rfl

theorem aPmPlus_ref {rows : List (List (HPoly R))} {ps : List (List (Poly R))} {e : AExpr R} {y : Expr R} {h : Heap R}
    (hr : Rep lo LP.list.list h.exps rows ps) (he : Rep lo LE h.exps e y) :
    Ref lo LE (aPmPlus rows e) h (pmPlus ps y) := by
  refine mVal_bind hr.matp fun _ _ => ?_
  refine eVal_bind he fun _ _ => ?_
  rw [hr.rowDims]
  refine pGo_bind fun d _ => ?_
  refine eVal_bind he fun _ _ => ?_
  refine pGo_bind fun _ _ => ?_
  cases e with
  | s b =>
    obtain ⟨s, rfl, hb⟩ := he.es_inv
    cases b with
    | k c => rw [hb.k_inv]; exact aPmPlusScalar_ref hr Rep.k
    | var v => rw [hb.var_inv]; exact Ref.panic
    | mono m =>
      obtain ⟨n, rfl, hm⟩ := hb.monoL
      refine Ref.bindOk (hCopy_ref hm) fun _ _ e1 h1 => ?_
      have h2 := Ref.bind (aPmPlusScalar_ref (hr.mono e1) (h1.cons Rep.nil).ofMonos.polyS) fun _ _ _ _ _ ho =>
        aSimplified_ref ho
      simp only [Go.assoc] at h2
      exact h2
    | poly p =>
      obtain ⟨q, rfl, hp⟩ := hb.polyP
      exact aPmPlusScalar_ref hr hb
  | v b =>
    obtain ⟨s, rfl, hb⟩ := he.ev_inv
    exact Ref.panic
  | m b =>
    obtain ⟨s, rfl, hb⟩ := he.em_inv
    cases b with
    | v l => rw [hb.matv_inv]; exact Ref.panic
    | m l =>
      obtain ⟨n, rfl, hm⟩ := hb.matm_inv
      exact Ref.panic
    | k ks =>
      rw [hb.matk_inv]
      refine Ref.bind (Ref.traverse _ (hr.zipIdx _ 0) fun ri si h1 e1 h2 => ?_) fun _ _ _ _ _ ho =>
        Ref.bind (aConcretizeM_ref ho) fun _ _ _ _ _ ho => aSimplified_ref ho
      obtain ⟨h3, h4⟩ := h2.idx_inv
      refine Ref.traverse _ (h4.zipIdx _ 0) fun mj nj h5 e5 h6 => ?_
      obtain ⟨h7, h8⟩ := h6.idx_inv
      rw [h3, h7]
      exact Ref.bind (aMatAt_ref Rep.matk _ _) fun _ _ _ e9 _ h9 => hPolyPlus_ref (h8.mono e9) h9
    | p l =>
      obtain ⟨n, rfl, hm⟩ := hb.matp_inv
      refine Ref.bind (Ref.traverse _ (hr.zipIdx _ 0) fun ri si h1 e1 h2 => ?_) fun _ _ _ _ _ ho =>
        Ref.bind (aConcretizeM_ref ho) fun _ _ _ _ _ ho => aSimplified_ref ho
      obtain ⟨h3, h4⟩ := h2.idx_inv
      refine Ref.traverse _ (h4.zipIdx _ 0) fun mj nj h5 e5 h6 => ?_
      obtain ⟨h7, h8⟩ := h6.idx_inv
      rw [h3, h7]
      exact Ref.bind (goGet2_ref ((hm.mono e1).mono e5) _ _) fun _ _ _ e9 _ h9 => hPolyPlus_ref (h8.mono e9) h9.polyS

theorem aMatPlus_ref {a : AMat R} {e : AExpr R} {x : Mat R} {y : Expr R} {h : Heap R}
    (ha : Rep lo LMt h.exps a x) (he : Rep lo LE h.exps e y) : Ref lo LE (aMatPlus a e) h (x.plus y) := by
  cases a with
  | k l => rw [ha.matk_inv]; exact aKmPlus_ref l he
  | v l => rw [ha.matv_inv]; exact aVmPlus_ref l he
  | m l =>
    obtain ⟨n, rfl, hm⟩ := ha.matm_inv
    exact aMmPlus_ref hm he
  | p l =>
    obtain ⟨n, rfl, hm⟩ := ha.matp_inv
    exact aPmPlus_ref hm he

/-! ## Plus on the interface -/

theorem aPolyPlusExpr_ref {p : HPoly R} {q : Poly R} {e : AExpr R} {y : Expr R} {h : Heap R}
    (hp : Rep lo LP h.exps p q) (he : Rep lo LE h.exps e y) : Ref lo LE (aPolyPlusExpr p e) h (q.plusExpr y) := by
  cases e with
  | s b =>
    obtain ⟨s, rfl, hb⟩ := he.es_inv
    exact Ref.bind (hPolyPlus_ref hp hb) fun _ _ _ _ _ ho => Ref.pure ho.es
  | v b =>
    obtain ⟨s, rfl, hb⟩ := he.ev_inv
    refine hCheck_bind hp.polyS ?_
    refine vVal_bind hb fun _ _ => ?_
    refine vVal_bind hb fun n _ => ?_
    by_cases hn : n = 1
    · rw [if_pos hn, if_pos hn]
      refine Ref.bind (aAtVec_ref hb 0) fun _ _ _ e1 _ ho => ?_
      exact Ref.bind (hPolyPlus_ref (hp.mono e1) ho) fun _ _ _ _ _ ho => aSimplified_ref ho.es
    · rw [if_neg hn, if_neg hn]
      refine Ref.bind (Ref.each _ fun i h1 e1 => ?_) fun _ _ _ _ _ ho =>
        Ref.bind (aConcretizeV_ref ho) fun _ _ _ _ _ ho => aSimplified_ref ho
      exact Ref.bind (aAtVec_ref (hb.mono e1) i) fun _ _ _ e2 _ ho => hPolyPlus_ref ((hp.mono e1).mono e2) ho
  | m b =>
    obtain ⟨s, rfl, hb⟩ := he.em_inv
    refine hCheck_bind hp.polyS ?_
    refine mVal_bind hb fun _ _ => ?_
    refine mVal_bind hb fun d _ => ?_
    by_cases hn : d.1 = 1 ∧ d.2 = 1
    · rw [if_pos hn, if_pos hn]
      refine Ref.bind (aMatAt_ref hb 0 0) fun _ _ _ e1 _ ho => ?_
      exact Ref.bind (hPolyPlus_ref (hp.mono e1) ho) fun _ _ _ _ _ ho => aSimplified_ref ho.es
    · rw [if_neg hn, if_neg hn]
      refine Ref.bind (Ref.each _ fun i h1 e1 => Ref.each _ fun j h2 e2 => ?_) fun _ _ _ _ _ ho =>
        Ref.bind (aConcretizeM_ref ho) fun _ _ _ _ _ ho => aSimplified_ref ho
      have e3 := e1.trans e2
      exact Ref.bind (aMatAt_ref (hb.mono e3) i j) fun _ _ _ e4 _ ho => hPolyPlus_ref ((hp.mono e3).mono e4) ho

theorem aPlus_ref {a e : AExpr R} {x y : Expr R} {h : Heap R} (ha : Rep lo LE h.exps a x) (he : Rep lo LE h.exps e y) :
    Ref lo LE (aPlus a e) h (x.plus y) := by
  cases a with
  | v b =>
    obtain ⟨s, rfl, hb⟩ := ha.ev_inv
    exact aVecPlus_ref hb he
  | m b =>
    obtain ⟨s, rfl, hb⟩ := ha.em_inv
    exact aMatPlus_ref hb he
  | s b =>
    obtain ⟨t, rfl, hb⟩ := ha.es_inv
    cases e with
    | s c =>
      obtain ⟨u, rfl, hc⟩ := he.es_inv
      have h1 : Expr.plus (.s t) (.s u) = t.plus u >>= fun r => .ok (.s r) := by unfold Expr.plus; rfl
      have h2 : aPlus (.s b) (.s c) = hPlus b c >>= fun r => pure (.s r) := by unfold aPlus; rfl
      rw [h1, h2]
      exact Ref.bind (hPlus_ref hb hc) fun _ _ _ _ _ ho => Ref.pure ho.es
    | v c =>
      obtain ⟨u, rfl, hc⟩ := he.ev_inv
      cases b with
      | k d => rw [hb.k_inv]; exact vVal_bind hc fun _ _ => aVecPlus_ref hc Rep.k.es
      | var v =>
        rw [hb.var_inv]
        refine hCheck_bind (e := .var v) (lo1 := 0) Rep.var ?_
        exact Ref.bind (aVecPlus_ref hc Rep.var.es) fun _ _ _ _ _ ho => aSimplified_ref ho
      | mono m =>
        obtain ⟨n, rfl, hm⟩ := hb.monoL
        exact hCheck_bind hb (eVal_bind he fun _ _ => eVal_bind he fun _ _ => pGo_bind fun _ _ => Ref.panic)
      | poly p =>
        obtain ⟨q, rfl, hp⟩ := hb.polyP
        exact aPolyPlusExpr_ref hp he
    | m c =>
      obtain ⟨u, rfl, hc⟩ := he.em_inv
      cases b with
      | k d => rw [hb.k_inv]; exact mVal_bind hc fun _ _ => aMatPlus_ref hc Rep.k.es
      | var v => rw [hb.var_inv]; exact hCheck_bind (e := .var v) (lo1 := 0) Rep.var Ref.panic
      | mono m =>
        obtain ⟨n, rfl, hm⟩ := hb.monoL
        exact hCheck_bind hb (eVal_bind he fun _ _ => eVal_bind he fun _ _ => pGo_bind fun _ _ => Ref.panic)
      | poly p =>
        obtain ⟨q, rfl, hp⟩ := hb.polyP
        exact aPolyPlusExpr_ref hp he

end Verif
