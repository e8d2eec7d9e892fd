import Verif.Lemmas.HeapArrayOps

/-!
# Products, powers, stacks and substitutions on memory refine those on values
-/

set_option linter.unusedSectionVars false

namespace Verif

open GoNum

variable {R : Type} [GoNum R] {lo : ℕ}

/-! ## Multiply -/

theorem aMulEntry_ref {a b : AMat R} {x y : Mat R} {h : Heap R} (n i j : ℕ)
    (ha : Rep 0 LMt h.exps a x) (hb : Rep 0 LMt h.exps b y) :
    Ref lo LS (aMulEntry a b n i j) h (mulEntry x y n i j) := by
  refine Ref.bind (Ref.accum _ Rep.k fun k acc z h1 e1 hacc => ?_) fun _ _ _ _ _ ho => hSimplified_ref ho
  refine Ref.bind0 (aMatAt_ref (ha.mono e1) i k) fun u _ h2 e2 _ hu => ?_
  refine Ref.bind0 (aMatAt_ref (hb.mono (e1.trans e2)) k j) fun w _ h3 e3 _ hw => ?_
  exact Ref.bind (hMul_ref (hu.mono e3) hw) fun _ _ _ e4 _ ho => hPlus_ref (((hacc.mono e2).mono e3).mono e4) ho

theorem aMatMulTemplate_ref {a b : AMat R} {x y : Mat R} {h : Heap R}
    (ha : Rep 0 LMt h.exps a x) (hb : Rep 0 LMt h.exps b y) :
    Ref lo LE (aMatMulTemplate a b) h (matMulTemplate x y) := by
  refine mVal_bind ha fun _ _ => ?_
  refine mVal_bind hb fun _ _ => ?_
  refine mVal_bind ha fun da _ => ?_
  refine mVal_bind hb fun db _ => ?_
  dsimp only
  refine ite_ref (fun _ => Ref.panic) fun _ => ?_
  refine Ref.bind (Ref.each _ fun i h1 e1 => Ref.each _ fun j h2 e2 => ?_) fun _ _ _ _ _ ho => aConcretizeM_ref ho
  exact aMulEntry_ref _ _ _ (ha.mono (e1.trans e2)) (hb.mono (e1.trans e2))

theorem aVarMulVec_ref (v : Var R) {b : AVec R} {y : Vec R} {h : Heap R} (hb : Rep 0 LV h.exps b y) :
    Ref lo LE (aVarMulVec v b) h (v.mulVec y) := by
  refine hCheck_bind (e := .var v) (lo1 := 0) Rep.var ?_
  refine vVal_bind hb fun _ _ => ?_
  refine vVal_bind hb fun _ _ => ?_
  refine pGo_bind fun _ _ => ?_
  exact Ref.bind (aVecMulTemplate_ref hb Rep.var) fun _ _ _ _ _ ho => aSimplified_ref ho

theorem aVarMulVecDense_ref (v : Var R) (l : List R) {h : Heap R} :
    Ref lo LE (aVarMulVecDense v l) h (v.mulVecDense l) :=
  Ref.bind (aVarMulVec_ref v Rep.vk) fun _ _ _ _ _ ho => Ref.bind (aSimplified_ref ho) fun _ _ _ _ _ ho =>
    aSimplified_ref ho

theorem aKmMul_ref (rows : List (List R)) {e : AExpr R} {y : Expr R} {h : Heap R} (he : Rep 0 LE h.exps e y) :
    Ref lo LE (aKmMul rows e) h (kmMul rows y) := by
  refine eVal_bind he fun _ _ => ?_
  refine pGo_bind fun d _ => ?_
  refine eVal_bind he fun _ _ => ?_
  refine pGo_bind fun _ _ => ?_
  cases e with
  | s b =>
    obtain ⟨s, rfl, hb⟩ := he.es_inv
    cases b with
    | k c => rw [hb.k_inv]; exact pGo_bind fun _ _ => Ref.pure Rep.matk.em
    | var v => rw [hb.var_inv]; exact Ref.panic
    | mono m =>
      obtain ⟨n, rfl, hm⟩ := hb.monoL
      exact Ref.panic
    | poly p =>
      obtain ⟨q, rfl, hp⟩ := hb.polyP
      refine Ref.bind (Ref.each _ fun i h1 e1 => Ref.each _ fun j h2 e2 => ?_) fun _ _ _ _ _ ho =>
        Ref.bind (aConcretizeM_ref ho) fun _ _ _ _ _ ho => aSimplified_ref ho
      refine pGo_bind fun x _ => ?_
      refine Ref.bindOk (aToPoly_ref (s := .k x) Rep.k) fun _ _ e3 h3 => ?_
      exact hPolyMul_ref h3.weaken (((hb.mono e1).mono e2).mono e3)
  | v b =>
    obtain ⟨s, rfl, hb⟩ := he.ev_inv
    cases b with
    | k l => rw [hb.vk_inv]; exact Ref.panic
    | m l =>
      obtain ⟨n, rfl, hm⟩ := hb.vm_inv
      exact Ref.panic
    | p l =>
      obtain ⟨n, rfl, hm⟩ := hb.vp_inv
      exact Ref.panic
    | v l =>
      rw [hb.vv_inv]
      dsimp only
      refine ite_ref (fun _ => ?_) fun _ => ?_
      · refine Ref.bind (Ref.accum _ Rep.k fun vi acc z h1 e1 hacc => ?_) fun _ _ _ _ _ ho =>
          Ref.bind (hSimplified_ref ho) fun _ _ _ _ _ ho => Ref.pure ho.es
        refine pGo_bind fun x _ => ?_
        exact Ref.bind (hVarMul_ref _ Rep.k) fun _ _ _ e2 _ ho => hPlus_ref (hacc.mono e2) ho
      · refine Ref.bind (Ref.accum _ Rep.vk.ev fun j acc z h1 e1 hacc => ?_) fun _ _ _ _ _ ho => aSimplified_ref ho
        refine pGo_bind fun _ _ => ?_
        refine pGo_bind fun _ _ => ?_
        refine pGo_bind fun _ _ => ?_
        exact Ref.bind (aVarMulVecDense_ref _ _) fun _ _ _ e2 _ ho => aPlus_ref (hacc.mono e2) ho
  | m b =>
    obtain ⟨s, rfl, hb⟩ := he.em_inv
    exact Ref.bind (aMatMulTemplate_ref Rep.matk hb) fun _ _ _ _ _ ho => aSimplified_ref ho

/-- `.(Monomial)` on values. -/
def Scalar.asMono' : Scalar R → Go (Mono R)
  | .mono m => .ok m
  | _ => .error .typeAssert

theorem hAsMono_ref' {e : HScalar R} {s : Scalar R} {h : Heap R} (he : Rep lo LS h.exps e s) :
    Ref lo LM (hAsMono e) h s.asMono' := by
  cases e with
  | k c => rw [he.k_inv]; exact Ref.panic
  | var v => rw [he.var_inv]; exact Ref.panic
  | mono m =>
    obtain ⟨n, rfl, hm⟩ := he.monoL
    exact Ref.pure hm
  | poly p =>
    obtain ⟨q, rfl, hp⟩ := he.polyP
    exact Ref.panic

theorem bind_asMono (x : Go (Scalar R)) (f : Scalar R → Go (Mono R)) (hf : ∀ s, f s = s.asMono') :
    (x >>= f) = x >>= Scalar.asMono' := by
  rw [funext hf]

theorem aVmMul_ref (rows : List (List (Var R))) {e : AExpr R} {y : Expr R} {h : Heap R} (he : Rep 0 LE h.exps e y) :
    Ref lo LE (aVmMul rows e) h (vmMul rows y) := by
  refine mVal_bind (lo1 := 0) Rep.matv fun _ _ => ?_
  refine eVal_bind he fun _ _ => ?_
  refine pGo_bind fun d _ => ?_
  refine eVal_bind he fun _ _ => ?_
  refine pGo_bind fun _ _ => ?_
  cases e with
  | s b =>
    obtain ⟨s, rfl, hb⟩ := he.es_inv
    cases b with
    | k c =>
      rw [hb.k_inv]
      refine Ref.bind (Ref.each _ fun row h1 e1 => Ref.each _ fun v h2 e2 => ?_) fun _ _ _ _ _ ho =>
        aSimplified_ref ho.matm.em
      rw [bind_asMono _ _ fun s => by cases s <;> rfl]
      exact Ref.bind (hVarMul_ref _ Rep.k) fun _ _ _ _ _ ho => hAsMono_ref' ho
    | var v => rw [hb.var_inv]; exact Ref.panic
    | mono m =>
      obtain ⟨n, rfl, hm⟩ := hb.monoL
      exact Ref.panic
    | poly p =>
      obtain ⟨q, rfl, hp⟩ := hb.polyP
      exact Ref.panic
  | v b =>
    obtain ⟨s, rfl, hb⟩ := he.ev_inv
    cases b with
    | k l =>
      rw [hb.vk_inv]
      refine Ref.bind (Ref.each _ fun row h1 e1 => Ref.accum _ Rep.k fun xk acc z h2 e2 hacc => ?_) fun _ _ _ _ _ ho =>
        Ref.bind (aConcretizeV_ref ho) fun _ _ _ _ _ ho => aSimplified_ref ho
      refine pGo_bind fun _ _ => ?_
      exact Ref.bind (hVarMul_ref _ Rep.k) fun _ _ _ e3 _ ho => hPlus_ref (hacc.mono e3) ho
    | m l =>
      obtain ⟨n, rfl, hm⟩ := hb.vm_inv
      exact Ref.panic
    | p l =>
      obtain ⟨n, rfl, hm⟩ := hb.vp_inv
      exact Ref.panic
    | v l =>
      rw [hb.vv_inv]
      refine Ref.bind (Ref.accum _ Rep.k.es fun j acc z h1 e1 hacc => ?_) fun _ _ _ _ _ ho => aSimplified_ref ho
      refine pGo_bind fun _ _ => ?_
      refine pGo_bind fun _ _ => ?_
      exact Ref.bind (aVecMul_ref Rep.vv Rep.var.es) fun _ _ _ e2 _ ho => aPlus_ref (hacc.mono e2) ho
  | m b =>
    obtain ⟨s, rfl, hb⟩ := he.em_inv
    exact Ref.bind (aMatMulTemplate_ref Rep.matv hb) fun _ _ _ _ _ ho => aSimplified_ref ho

theorem aMonoMulVar_ref {m : HMono R} {n : Mono R} (v : Var R) {h : Heap R} (hm : Rep 0 LM h.exps m n) :
    Ref lo LS (aMonoMulVar m v) h (n.toPoly.mul (.var v)) :=
  Ref.bind0 (g := fun p => p.mul (.var v)) (aToPoly_ref (Rep.mono_iff.mpr ⟨_, rfl, hm⟩)) fun _ _ _ _ _ ho => hPolyMul_ref ho Rep.var

theorem mmRowMul_eq (row : List (Mono R)) (l : List (Var R)) : mmRowMul row l =
    goGet row 0 >>= fun m0 => goGet l 0 >>= fun v0 => m0.toPoly.mul (.var v0) >>= fun init =>
    (row.zipIdx.drop 1).foldlM (fun (acc : Scalar R) mj => goGet l mj.2 >>= fun v =>
      mj.1.toPoly.mul (.var v) >>= fun t => acc.plus t >>= fun s => s.asPoly >>= fun p => .ok (.poly p)) init := by
  have h1 : (fun s : Scalar R => s.asPoly >>= fun p => (.ok (.poly p) : Go (Scalar R))) = (fun s : Scalar R => (match s with
      | .poly p => (pure (.poly p) : Go (Scalar R))
      | _ => throw .typeAssert)) := by
    funext s
    cases s <;> rfl
  rw [h1]
  rfl

theorem aMmRowMul_ref {row : List (HMono R)} {ms : List (Mono R)} (l : List (Var R)) {h : Heap R}
    (hr : Rep 0 LM.list h.exps row ms) : Ref lo LS (aMmRowMul row l) h (mmRowMul ms l) := by
  rw [mmRowMul_eq]
  refine Ref.bind0 (goGet_ref hr 0) fun m0 n0 h1 e1 _ hm0 => ?_
  refine pGo_bind fun v0 _ => ?_
  refine Ref.bind (aMonoMulVar_ref v0 hm0) fun i0 z h2 e2 _ hi => ?_
  refine Ref.foldl _ ((((hr.mono e1).mono e2).zipIdx _ 0).drop 1) hi fun mj nj acc y h3 e3 hmj hacc => ?_
  obtain ⟨h4, h5⟩ := hmj.idx_inv
  rw [h4]
  refine pGo_bind fun v _ => ?_
  refine Ref.bind (aMonoMulVar_ref v h5) fun t _ h6 e6 _ ht => ?_
  refine Ref.bind (hPlus_ref (hacc.mono e6) ht) fun s _ h7 e7 _ hs => ?_
  exact Ref.bind (aAsPoly_ref hs) fun _ _ _ _ _ ho => Ref.pure ho.polyS

theorem aMmMul_ref {rows : List (List (HMono R))} {ms : List (List (Mono R))} {e : AExpr R} {y : Expr R} {h : Heap R}
    (hr : Rep 0 LM.list.list h.exps rows ms) (he : Rep 0 LE h.exps e y) :
    Ref lo LE (aMmMul rows e) h (mmMul ms y) := by
  refine mVal_bind hr.matm fun _ _ => ?_
  refine eVal_bind he fun _ _ => ?_
  rw [hr.rowDims]
  refine pGo_bind fun d _ => ?_
  refine eVal_bind he fun _ _ => ?_
  refine pGo_bind fun _ _ => ?_
  cases e with
  | s b =>
    obtain ⟨s, rfl, hb⟩ := he.es_inv
    cases b with
    | k c =>
      rw [hb.k_inv]
      have h1 := Ref.traverse2 (lo := lo) (M := LM) (f := fun m => hMonoMulK m c) (g := fun n => .ok (n.mulK c)) rows hr
        fun a x h' _ ha => hMonoMulK_ref ha c
      rw [mapM_mapM_pure] at h1
      exact Ref.bindOk h1 fun _ _ _ ho => Ref.pure ho.matm.em
    | var v => rw [hb.var_inv]; exact Ref.panic
    | mono m =>
      obtain ⟨n, rfl, hm⟩ := hb.monoL
      exact Ref.panic
    | poly p =>
      obtain ⟨q, rfl, hp⟩ := hb.polyP
      exact Ref.panic
  | v b =>
    obtain ⟨s, rfl, hb⟩ := he.ev_inv
    cases b with
    | k l => rw [hb.vk_inv]; exact Ref.panic
    | m l =>
      obtain ⟨n, rfl, hm⟩ := hb.vm_inv
      exact Ref.panic
    | p l =>
      obtain ⟨n, rfl, hm⟩ := hb.vp_inv
      exact Ref.panic
    | v l =>
      rw [hb.vv_inv]
      dsimp only
      refine ite_ref (fun _ => ?_) fun _ => ?_
      · refine Ref.bind0 (goGet_ref hr 0) fun row nr h1 e1 _ hrow => ?_
        refine Ref.bind (Ref.foldl _ (hrow.zipIdx _ 0) Rep.k fun mj nj acc y h3 e3 hmj hacc => ?_) fun _ _ _ _ _ ho =>
          Ref.bind (hSimplified_ref ho) fun _ _ _ _ _ ho => Ref.pure ho.es
        obtain ⟨h4, h5⟩ := hmj.idx_inv
        rw [h4]
        refine pGo_bind fun v _ => ?_
        exact Ref.bind (hMonoMul_ref h5 Rep.var) fun _ _ _ e6 _ ho => hPlus_ref (hacc.mono e6) ho
      · refine Ref.bind (Ref.traverse _ hr fun row nr h1 e1 hrow => aMmRowMul_ref l hrow) fun _ _ _ _ _ ho => ?_
        exact Ref.bind (aConcretizeVec_ref ho) fun _ _ _ _ _ ho => Ref.pure ho.ev
  | m b =>
    obtain ⟨s, rfl, hb⟩ := he.em_inv
    exact aMatMulTemplate_ref hr.matm hb

theorem aPmMul_ref {rows : List (List (HPoly R))} {ps : List (List (Poly R))} {e : AExpr R} {y : Expr R} {h : Heap R}
    (hr : Rep 0 LP.list.list h.exps rows ps) (he : Rep 0 LE h.exps e y) :
    Ref lo LE (aPmMul rows e) h (pmMul ps y) := by
  refine mVal_bind hr.matp fun _ _ => ?_
  refine eVal_bind he fun _ _ => ?_
  rw [hr.rowDims]
  refine pGo_bind fun d _ => ?_
  refine eVal_bind he fun _ _ => ?_
  refine pGo_bind fun _ _ => ?_
  cases e with
  | s b =>
    obtain ⟨s, rfl, hb⟩ := he.es_inv
    cases b with
    | k c =>
      rw [hb.k_inv]
      refine Ref.bind (Ref.traverse2 _ hr fun _ _ _ _ h1 => hPolyMul_ref h1 Rep.k) fun _ _ _ _ _ ho =>
        Ref.bind (aConcretizeM_ref ho) fun _ _ _ _ _ ho => aSimplified_ref ho
    | var v => rw [hb.var_inv]; exact Ref.panic
    | mono m =>
      obtain ⟨n, rfl, hm⟩ := hb.monoL
      exact Ref.panic
    | poly p =>
      obtain ⟨q, rfl, hp⟩ := hb.polyP
      exact Ref.panic
  | v b =>
    obtain ⟨s, rfl, hb⟩ := he.ev_inv
    cases b with
    | k l => rw [hb.vk_inv]; exact Ref.panic
    | m l =>
      obtain ⟨n, rfl, hm⟩ := hb.vm_inv
      exact Ref.panic
    | p l =>
      obtain ⟨n, rfl, hm⟩ := hb.vp_inv
      exact Ref.panic
    | v l =>
      rw [hb.vv_inv]
      refine Ref.bind (M := LS.list) (Ref.traverse _ hr fun row nr h1 e1 hrow => ?_) fun sums _ _ _ _ ho => ?_
      · refine Ref.foldl _ (hrow.zipIdx _ 0) Rep.k fun mj nj acc y h3 e3 hmj hacc => ?_
        obtain ⟨h4, h5⟩ := hmj.idx_inv
        rw [h4]
        refine pGo_bind fun v _ => ?_
        exact Ref.bind (hPolyMul_ref h5 Rep.var) fun _ _ _ e6 _ ho => hPlus_ref (hacc.mono e6) ho
      · refine ite_ref (fun _ => ?_) fun _ => aConcretizeV_ref ho
        refine Ref.bind (goGet_ref ho 0) fun _ _ _ _ _ ho => ?_
        exact Ref.bind (hSimplified_ref ho) fun _ _ _ _ _ ho => Ref.pure ho.es
  | m b =>
    obtain ⟨s, rfl, hb⟩ := he.em_inv
    exact aMatMulTemplate_ref hr.matp hb

theorem aMatMul_ref {a : AMat R} {e : AExpr R} {x : Mat R} {y : Expr R} {h : Heap R}
    (ha : Rep 0 LMt h.exps a x) (he : Rep 0 LE h.exps e y) : Ref lo LE (aMatMul a e) h (x.mul y) := by
  cases a with
  | k l => rw [ha.matk_inv]; exact aKmMul_ref l he
  | v l => rw [ha.matv_inv]; exact aVmMul_ref l he
  | m l =>
    obtain ⟨n, rfl, hm⟩ := ha.matm_inv
    exact aMmMul_ref hm he
  | p l =>
    obtain ⟨n, rfl, hm⟩ := ha.matp_inv
    exact aPmMul_ref hm he

theorem aMul_ref {a e : AExpr R} {x y : Expr R} {h : Heap R} (ha : Rep 0 LE h.exps a x) (he : Rep 0 LE h.exps e y) :
    Ref lo LE (aMul a e) h (x.mul y) := by
  cases a with
  | v b =>
    obtain ⟨s, rfl, hb⟩ := ha.ev_inv
    exact aVecMul_ref hb he
  | m b =>
    obtain ⟨s, rfl, hb⟩ := ha.em_inv
    exact aMatMul_ref hb he
  | s b =>
    obtain ⟨t, rfl, hb⟩ := ha.es_inv
    cases e with
    | s c =>
      obtain ⟨u, rfl, hc⟩ := he.es_inv
      have h1 : Expr.mul (.s t) (.s u) = t.mul u >>= fun r => .ok (.s r) := by unfold Expr.mul; rfl
      have h2 : aMul (.s b) (.s c) = hMul b c >>= fun r => pure (.s r) := by unfold aMul; rfl
      rw [h1, h2]
      exact Ref.bind (hMul_ref hb hc) fun _ _ _ _ _ ho => Ref.pure ho.es
    | v c =>
      obtain ⟨u, rfl, hc⟩ := he.ev_inv
      cases b with
      | k d => rw [hb.k_inv]; exact eVal_bind he fun _ _ => Ref.panic
      | var v => rw [hb.var_inv]; exact aVarMulVec_ref v hc
      | mono m =>
        obtain ⟨n, rfl, hm⟩ := hb.monoL
        exact hCheck_bind hb (eVal_bind he fun _ _ => eVal_bind he fun _ _ => pGo_bind fun _ _ => Ref.panic)
      | poly p =>
        obtain ⟨q, rfl, hp⟩ := hb.polyP
        refine hCheck_bind hb ?_
        refine vVal_bind hc fun _ _ => ?_
        exact Ref.bind (aVecMul_ref hc hb.es) fun _ _ _ _ _ ho => aSimplified_ref ho
    | m c =>
      obtain ⟨u, rfl, hc⟩ := he.em_inv
      cases b with
      | k d => rw [hb.k_inv]; exact eVal_bind he fun _ _ => Ref.panic
      | var v =>
        rw [hb.var_inv]
        refine hCheck_bind (e := .var v) (lo1 := 0) Rep.var ?_
        exact mVal_bind hc fun _ _ => mVal_bind hc fun _ _ => pGo_bind fun _ _ => Ref.panic
      | mono m =>
        obtain ⟨n, rfl, hm⟩ := hb.monoL
        exact hCheck_bind hb (eVal_bind he fun _ _ => eVal_bind he fun _ _ => pGo_bind fun _ _ => Ref.panic)
      | poly p =>
        obtain ⟨q, rfl, hp⟩ := hb.polyP
        refine hCheck_bind hb ?_
        refine mVal_bind hc fun _ _ => ?_
        exact Ref.bind (aMatMul_ref hc hb.es) fun _ _ _ _ _ ho => aSimplified_ref ho

/-! ## Minus, Power -/

theorem aMulF64_ref {a : AExpr R} {x : Expr R} {h : Heap R} (ha : Rep 0 LE h.exps a x) (c : R) :
    Ref lo LE (aMulF64 a c) h (x.mulF64 c) := by
  cases a with
  | s b =>
    obtain ⟨t, rfl, hb⟩ := ha.es_inv
    cases b with
    | k d => rw [hb.k_inv]; exact Ref.pure Rep.k.es
    | var v =>
      rw [hb.var_inv]
      exact Ref.bind (aMul_ref Rep.var.es Rep.k.es) fun _ _ _ _ _ ho => aSimplified_ref ho
    | mono m =>
      obtain ⟨n, rfl, hm⟩ := hb.monoL
      exact Ref.bind (hMonoMul_ref hm Rep.k) fun _ _ _ _ _ ho => Ref.pure ho.es
    | poly p =>
      obtain ⟨q, rfl, hp⟩ := hb.polyP
      exact Ref.bind (aMul_ref hb.es Rep.k.es) fun _ _ _ _ _ ho => aSimplified_ref ho
  | v b =>
    obtain ⟨t, rfl, hb⟩ := ha.ev_inv
    cases b with
    | v l => rw [hb.vv_inv]; exact aVecMul_ref Rep.vv Rep.k.es
    | k l =>
      rw [hb.vk_inv]
      exact Ref.bind (aMul_ref Rep.vk.ev Rep.k.es) fun _ _ _ _ _ ho => aSimplified_ref ho
    | m l =>
      obtain ⟨n, rfl, hm⟩ := hb.vm_inv
      exact Ref.bind (aMul_ref hb.ev Rep.k.es) fun _ _ _ _ _ ho => aSimplified_ref ho
    | p l =>
      obtain ⟨n, rfl, hm⟩ := hb.vp_inv
      exact Ref.bind (aMul_ref hb.ev Rep.k.es) fun _ _ _ _ _ ho => aSimplified_ref ho
  | m b =>
    obtain ⟨t, rfl, hb⟩ := ha.em_inv
    cases b with
    | k l => rw [hb.matk_inv]; exact aKmMul_ref l Rep.k.es
    | m l =>
      obtain ⟨n, rfl, hm⟩ := hb.matm_inv
      exact aMmMul_ref hm Rep.k.es
    | v l =>
      rw [hb.matv_inv]
      exact Ref.bind (aMul_ref Rep.matv.em Rep.k.es) fun _ _ _ _ _ ho => aSimplified_ref ho
    | p l =>
      obtain ⟨n, rfl, hm⟩ := hb.matp_inv
      exact Ref.bind (aMul_ref hb.em Rep.k.es) fun _ _ _ _ _ ho => aSimplified_ref ho

theorem aMinusGen_ref {a b : AExpr R} {x y : Expr R} {h : Heap R} (ha : Rep lo LE h.exps a x)
    (hb : Rep 0 LE h.exps b y) : Ref lo LE (aMinusGen a b) h (x.minusGen y) :=
  Ref.bind (aMulF64_ref hb negOne) fun _ _ _ e1 _ ho => aPlus_ref (ha.mono e1) ho

theorem aMinusAll_ref {a b : AExpr R} {x y : Expr R} {h : Heap R} (ha : Rep lo LE h.exps a x)
    (hb : Rep 0 LE h.exps b y) : Ref lo LE (do
      eVal a Expr.check
      eVal b Expr.check
      let d ← eVal a Expr.dims
      let d' ← eVal b Expr.dims
      pGo (checkDimAdd d d')
      aMinusGen a b) h (do
      x.check
      y.check
      checkDimAdd (← x.dims) (← y.dims)
      x.minusGen y) :=
  eVal_bind ha fun _ _ => eVal_bind hb fun _ _ => eVal_bind ha fun _ _ => eVal_bind hb fun _ _ =>
    pGo_bind fun _ _ => aMinusGen_ref ha hb

theorem aMinus_ref {a b : AExpr R} {x y : Expr R} {h : Heap R} (ha : Rep lo LE h.exps a x)
    (hb : Rep 0 LE h.exps b y) : Ref lo LE (aMinus a b) h (x.minus y) := by
  cases a with
  | s c =>
    obtain ⟨t, rfl, hc⟩ := ha.es_inv
    cases c with
    | k d => obtain rfl := hc.k_inv; exact eVal_bind hb fun _ _ => aMinusGen_ref ha hb
    | var v => obtain rfl := hc.var_inv; exact aMinusAll_ref ha hb
    | mono m =>
      obtain ⟨n, rfl, hm⟩ := hc.monoL
      exact aMinusAll_ref ha hb
    | poly p =>
      obtain ⟨q, rfl, hp⟩ := hc.polyP
      exact hCheck_bind hc (eVal_bind hb fun _ _ => aMinusGen_ref ha hb)
  | v c =>
    obtain ⟨t, rfl, hc⟩ := ha.ev_inv
    cases c with
    | k l =>
      obtain rfl := hc.vk_inv
      refine eVal_bind hb fun _ _ => eVal_bind hb fun _ _ => pGo_bind fun _ _ => ?_
      cases b with
      | s c =>
        obtain ⟨t, rfl, hc⟩ := hb.es_inv
        exact aMinusGen_ref ha hb
      | v c =>
        obtain ⟨t, rfl, hc⟩ := hb.ev_inv
        exact aMinusGen_ref ha hb
      | m c =>
        obtain ⟨t, rfl, hc⟩ := hb.em_inv
        exact Ref.panic
    | v l => obtain rfl := hc.vv_inv; exact aMinusAll_ref ha hb
    | m l =>
      obtain ⟨n, rfl, hm⟩ := hc.vm_inv
      exact aMinusAll_ref ha hb
    | p l =>
      obtain ⟨n, rfl, hm⟩ := hc.vp_inv
      exact aMinusAll_ref ha hb
  | m c =>
    obtain ⟨t, rfl, hc⟩ := ha.em_inv
    exact aMinusAll_ref ha hb

theorem aVecPower_ref {a : AVec R} {x : Vec R} {h : Heap R} (ha : Rep 0 LV h.exps a x) (n : ℤ) :
    Ref lo LS (aVecPower a n) h (x.power n) := by
  refine vVal_bind ha fun _ _ => ?_
  dsimp only
  refine ite_ref (fun _ => Ref.panic) fun _ => ?_
  refine vVal_bind ha fun len _ => ?_
  refine ite_ref (fun _ => Ref.panic) fun _ => ?_
  refine Ref.accum _ Rep.k fun _ acc z h1 e1 hacc => ?_
  exact Ref.bind0 (aAtVec_ref (ha.mono e1) 0) fun _ _ _ e2 _ ho => hMul_ref (hacc.weaken.mono e2) ho

/-- `.(MatrixExpression)` on values. -/
def Expr.asMat' : Expr R → Go (Mat R)
  | .m b => .ok b
  | _ => .error .typeAssert

theorem aAsMat_ref {e : AExpr R} {x : Expr R} {h : Heap R} (he : Rep lo LE h.exps e x) :
    Ref lo LMt (aAsMat e) h x.asMat' := by
  cases e with
  | s c =>
    obtain ⟨t, rfl, hc⟩ := he.es_inv
    exact Ref.panic
  | v c =>
    obtain ⟨t, rfl, hc⟩ := he.ev_inv
    exact Ref.panic
  | m c =>
    obtain ⟨t, rfl, hc⟩ := he.em_inv
    exact Ref.pure hc

theorem matPower_eq (x : Mat R) (n : ℤ) : x.power n = x.check >>= fun _ => x.dims >>= fun d =>
    if d.1 ≠ d.2 then .error .other else if n < 0 then .error .negExponent else if d.1 = 0 then .error .empty
    else kmPlus (identityRows d.1) (.s (.k zero)) >>= fun i => i.asMat' >>= fun start =>
      (List.range n.toNat).foldlM (fun (acc : Mat R) _ => acc.mul (.m x) >>= Expr.asMat') start := by
  have h1 : (Expr.asMat' : Expr R → Go (Mat R)) = (fun s : Expr R => (match s with
      | .m p => (pure p : Go (Mat R))
      | _ => throw .typeAssert)) := by
    funext s
    cases s <;> rfl
  have h2 : ∀ {β : Type} (s : Expr R) (g : Mat R → Go β), s.asMat' >>= g = (match s with
      | .m p => g p
      | _ => throw .typeAssert) := by
    intro β s g
    cases s <;> rfl
  simp only [h2]
  rw [h1]
  unfold Mat.power
  have ha : ∀ {α β : Type} (x : Go α) (f g : α → Go β), (∀ a, f a = g a) → (x >>= f) = x >>= g := by
    intro α β x f g h
    cases x with
    | ok a => exact h a
    | error e => rfl
  refine ha _ _ _ fun _ => ha _ _ _ fun d => ?_
  dsimp only
  split
  · rfl
  · split
    · rfl
    · split
      · rfl
      · refine ha _ _ _ fun i => ?_
        cases i <;> rfl

theorem aMatPower_ref {a : AMat R} {x : Mat R} {h : Heap R} (ha : Rep 0 LMt h.exps a x) (n : ℤ) :
    Ref lo LMt (aMatPower a n) h (x.power n) := by
  rw [matPower_eq]
  refine mVal_bind ha fun _ _ => ?_
  refine mVal_bind ha fun d _ => ?_
  refine ite_ref (fun _ => Ref.panic) fun _ => ?_
  refine ite_ref (fun _ => Ref.panic) fun _ => ?_
  refine ite_ref (fun _ => Ref.panic) fun _ => ?_
  refine Ref.bind (aKmPlus_ref _ Rep.k.es) fun _ _ _ e1 _ ho => ?_
  refine Ref.bind (aAsMat_ref ho) fun _ _ _ e2 _ ho => ?_
  refine Ref.accum _ ho fun _ acc z h1 e3 hacc => ?_
  refine Ref.bind (aMatMul_ref hacc.weaken (((ha.mono e1).mono e2).mono e3).em) fun _ _ _ _ _ ho => aAsMat_ref ho

theorem aPower_ref {a : AExpr R} {x : Expr R} {h : Heap R} (ha : Rep 0 LE h.exps a x) (n : ℤ) :
    Ref lo LE (aPower a n) h (x.power n) := by
  cases a with
  | s c =>
    obtain ⟨t, rfl, hc⟩ := ha.es_inv
    exact Ref.bind (hPower_ref hc n) fun _ _ _ _ _ ho => Ref.pure ho.es
  | v c =>
    obtain ⟨t, rfl, hc⟩ := ha.ev_inv
    exact Ref.bind (aVecPower_ref hc n) fun _ _ _ _ _ ho => Ref.pure ho.es
  | m c =>
    obtain ⟨t, rfl, hc⟩ := ha.em_inv
    exact Ref.bind (aMatPower_ref hc n) fun _ _ _ _ _ ho => Ref.pure ho.em

/-! ## Transpose, HStack, VStack -/

theorem transposeRows_ref {α A : Type} {L : Loader α A} {l : List (List α)} {xs : List (List A)} {h : Heap R}
    (hl : Rep lo L.list.list h.exps l xs) (c : ℕ) :
    Ref lo L.list.list (pGo (transposeRows l c)) h (transposeRows xs c) := by
  have hT : ∀ {β γ : Type} (l : List β) (f : β → Go γ),
      (pGo (l.mapM f) : PM (Heap R) (List γ)) = PM.traverse (fun i => pGo (f i)) l := by
    intro β γ l f
    induction l with
    | nil => rfl
    | cons a l ih =>
      rw [List.mapM_cons, pGo_assoc]
      show _ = pGo (f a) >>= fun b => PM.traverse _ l >>= fun bs => pure (b :: bs)
      rw [← ih]
      refine congrArg _ (funext fun b => ?_)
      rw [pGo_assoc]
      rfl
  unfold transposeRows
  rw [hT]
  refine Ref.each _ fun i h1 e1 => ?_
  rw [hT]
  exact Ref.traverse _ (hl.mono e1) fun _ _ _ _ h2 => goGet_ref h2 _

theorem aVecTranspose_ref {a : AVec R} {x : Vec R} {h : Heap R} (ha : Rep lo LV h.exps a x) :
    Ref lo LMt (aVecTranspose a) h x.transpose := by
  cases a with
  | k l =>
    rw [ha.vk_inv]
    cases l with
    | nil => exact Ref.panic
    | cons a l => exact Ref.pure Rep.matk
  | v l => rw [ha.vv_inv]; exact vVal_bind (lo1 := 0) Rep.vv fun _ _ => Ref.pure Rep.matv
  | m l =>
    obtain ⟨n, rfl, hm⟩ := ha.vm_inv
    exact vVal_bind ha fun _ _ => Ref.pure (hm.cons Rep.nil).matm
  | p l =>
    obtain ⟨n, rfl, hm⟩ := ha.vp_inv
    exact vVal_bind ha fun _ _ => Ref.pure (hm.cons Rep.nil).matp

theorem aMatTranspose_ref {a : AMat R} {x : Mat R} {h : Heap R} (ha : Rep lo LMt h.exps a x) :
    Ref lo LMt (aMatTranspose a) h x.transpose := by
  cases a with
  | k l =>
    rw [ha.matk_inv]
    exact pGo_bind fun _ _ => pGo_bind fun _ _ => pGo_bind fun _ _ => Ref.pure Rep.matk
  | v l =>
    rw [ha.matv_inv]
    exact mVal_bind (lo1 := 0) Rep.matv fun _ _ => pGo_bind fun _ _ => Ref.pure Rep.matv
  | m l =>
    obtain ⟨n, rfl, hm⟩ := ha.matm_inv
    exact mVal_bind ha fun _ _ => Ref.bind (transposeRows_ref hm _) fun _ _ _ _ _ ho => Ref.pure ho.matm
  | p l =>
    obtain ⟨n, rfl, hm⟩ := ha.matp_inv
    exact mVal_bind ha fun _ _ => Ref.bind (transposeRows_ref hm _) fun _ _ _ _ _ ho => Ref.pure ho.matp

theorem aTranspose_ref {a : AExpr R} {x : Expr R} {h : Heap R} (ha : Rep lo LE h.exps a x) :
    Ref lo LE (aTranspose a) h x.transpose := by
  cases a with
  | s c =>
    obtain ⟨t, rfl, hc⟩ := ha.es_inv
    cases c with
    | k d => rw [hc.k_inv]; exact Ref.pure Rep.k.es
    | var v => rw [hc.var_inv]; exact Ref.pure Rep.var.es
    | mono m =>
      obtain ⟨n, rfl, hm⟩ := hc.monoL
      exact hCheck_bind hc (Ref.pure hc.es)
    | poly p =>
      obtain ⟨q, rfl, hp⟩ := hc.polyP
      exact hCheck_bind hc (Ref.pure hc.es)
  | v c =>
    obtain ⟨t, rfl, hc⟩ := ha.ev_inv
    exact Ref.bind (aVecTranspose_ref hc) fun _ _ _ _ _ ho => Ref.pure ho.em
  | m c =>
    obtain ⟨t, rfl, hc⟩ := ha.em_inv
    exact Ref.bind (aMatTranspose_ref hc) fun _ _ _ _ _ ho => Ref.pure ho.em

theorem aRow_ref {a : AExpr R} {x : Expr R} {h : Heap R} (ha : Rep lo LE h.exps a x) (i c : ℕ) :
    Ref lo LS.list (aRow a i c) h (x.row i c) :=
  Ref.each _ fun j _ e1 => aAt_ref (ha.mono e1) i j

/-- An expression with its size. -/
def Loader.size {α A : Type} (L : Loader α A) : Loader (α × ℕ × ℕ) (A × ℕ × ℕ) where
  addrs q := L.addrs q.1
  load h q := (L.load h q.1, q.2)
  congr hx := by rw [L.congr hx]

theorem Rep.size_inv {α A : Type} {L : Loader α A} {h : ExpHeap} {a : α × ℕ × ℕ} {x : A × ℕ × ℕ}
    (hx : Rep lo L.size h a x) : a.2 = x.2 ∧ Rep lo L h a.1 x.1 := by
  obtain ⟨h1, rfl⟩ := hx
  exact ⟨rfl, h1, rfl⟩

theorem Rep.zipSize {α A : Type} {L : Loader α A} {h : ExpHeap} (l : List α) : ∀ {xs : List A} (ds : List (ℕ × ℕ)),
    Rep lo L.list h l xs → Rep lo L.size.list h (l.zip ds) (xs.zip ds) := by
  induction l with
  | nil => intro xs ds hl; rw [hl.nil_inv]; exact Rep.nil
  | cons a l ih =>
    intro xs ds hl
    obtain ⟨y, ys, rfl, h1, h2⟩ := hl.cons_inv
    cases ds with
    | nil => exact Rep.nil
    | cons d ds =>
      rw [List.zip_cons_cons, List.zip_cons_cons]
      exact Rep.cons ⟨h1.valid, by rw [← h1.load]; rfl⟩ (ih ds h2)

theorem dims_ref {l : List (AExpr R)} {xs : List (Expr R)} {h : Heap R} (hl : Rep lo LE.list h.exps l xs) :
    Ref lo (Loader.const (ℕ × ℕ)).list (PM.traverse (fun e => eVal e Expr.dims) l) h (xs.mapM Expr.dims) := by
  refine Ref.traverse _ hl fun a x h' _ ha => ?_
  have h1 : Ref lo (Loader.const (ℕ × ℕ)) (eVal a Expr.dims >>= fun d => pure d) h' (x.dims >>= fun d => .ok d) :=
    eVal_bind ha fun _ _ => Ref.pure Rep.constElem
  rw [← bind_ok_self x.dims] at h1
  have h2 : (eVal a Expr.dims >>= fun d => pure d : PM (Heap R) (ℕ × ℕ)) = eVal a Expr.dims := by
    funext g
    show PM.bind _ _ g = _
    unfold PM.bind eVal PM.read
    dsimp only
    cases (a.load g.exps).dims <;> rfl
  rw [h2] at h1
  exact h1

theorem hstack_shape (es : List (Expr R)) : hstack es = if es.isEmpty then .error .other else
    es.mapM Expr.dims >>= fun ds => checkNeighbours (ds.map (·.1)) >>= fun _ =>
    match ds with
    | [] => .error .other
    | d :: _ => ((List.range d.1).mapM fun (i : Nat) => (es.zip ds).mapM (fun ed => ed.1.row i ed.2.2) >>= fun bs =>
        .ok bs.flatten) >>= concretizeM := by
  have ha : ∀ {α β : Type} (x : Go α) (f g : α → Go β), (∀ a, f a = g a) → (x >>= f) = x >>= g := by
    intro α β x f g h
    cases x with
    | ok a => exact h a
    | error e => rfl
  cases es with
  | nil => rfl
  | cons e es =>
    refine ha _ _ _ fun ds => ha _ _ _ fun _ => ?_
    cases ds <;> rfl

theorem aHstack_ref {l : List (AExpr R)} {xs : List (Expr R)} {h : Heap R} (hl : Rep lo LE.list h.exps l xs) :
    Ref lo LE (aHstack l) h (hstack xs) := by
  rw [hstack_shape]
  unfold aHstack
  rw [hl.isEmpty]
  refine ite_ref (fun _ => Ref.panic) fun _ => ?_
  refine Ref.bind (dims_ref hl) fun ds z h1 e1 _ hds => ?_
  obtain rfl := hds.constList_inv
  refine pGo_bind fun _ _ => ?_
  cases ds with
  | nil => exact Ref.panic
  | cons d ds =>
    refine Ref.bind (Ref.each _ fun i h2 e2 => ?_) fun _ _ _ _ _ ho => aConcretizeM_ref ho
    refine Ref.bind (Ref.traverse _ (((hl.mono e1).mono e2).zipSize _ _) fun a x h3 e3 ha => ?_)
      fun _ _ _ _ _ ho => Ref.pure ho.flatten
    obtain ⟨h4, h5⟩ := ha.size_inv
    rw [h4]
    exact aRow_ref h5 _ _

theorem vstack_shape (es : List (Expr R)) : vstack es = if es.isEmpty then .error .other else
    es.mapM Expr.dims >>= fun ds => checkNeighbours (ds.map (·.2)) >>= fun _ =>
    (es.zip ds).mapM (fun ed => (List.range ed.2.1).mapM (fun (i : Nat) => ed.1.row i ed.2.2)) >>= fun rs =>
      concretizeM rs.flatten := by
  cases es with
  | nil => rfl
  | cons e es => rfl

theorem aVstack_ref {l : List (AExpr R)} {xs : List (Expr R)} {h : Heap R} (hl : Rep lo LE.list h.exps l xs) :
    Ref lo LE (aVstack l) h (vstack xs) := by
  rw [vstack_shape]
  unfold aVstack
  rw [hl.isEmpty]
  refine ite_ref (fun _ => Ref.panic) fun _ => ?_
  refine Ref.bind (dims_ref hl) fun ds z h1 e1 _ hds => ?_
  obtain rfl := hds.constList_inv
  refine pGo_bind fun _ _ => ?_
  refine Ref.bind (Ref.traverse _ ((hl.mono e1).zipSize _ _) fun a x h3 e3 ha => ?_)
    fun _ _ _ _ _ ho => aConcretizeM_ref ho.flatten
  obtain ⟨h4, h5⟩ := ha.size_inv
  rw [h4]
  exact Ref.each _ fun i _ e4 => aRow_ref (h5.mono e4) _ _

/-! ## Substitution -/

theorem aVecSubstituteAll_ref {a : AVec R} {x : Vec R} (v : Var R) {s : HScalar R} {t : Scalar R} {h : Heap R}
    (ha : Rep lo LV h.exps a x) (hs : Rep lo LS h.exps s t) : Ref lo LV (do
      vVal a Vec.check
      hCheck (.var v)
      hCheck s
      let n ← vVal a Vec.len
      let es ← PM.traverse (fun (i : Nat) => do
        let x ← aAtVec a i
        hSubstitute x v s) (List.range n)
      aConcretizeVec es) h (do
      x.check
      v.check
      t.check
      let n ← x.len
      concretizeVec (← (List.range n).mapM (fun (i : Nat) => do
        let y ← x.atVec i
        y.substitute v t))) := by
  refine vVal_bind ha fun _ _ => ?_
  refine hCheck_bind (e := .var v) (lo1 := 0) Rep.var ?_
  refine hCheck_bind hs ?_
  refine vVal_bind ha fun n _ => ?_
  refine Ref.bind (Ref.each _ fun i h1 e1 => ?_) fun _ _ _ _ _ ho => aConcretizeVec_ref ho
  exact Ref.bind (aAtVec_ref (ha.mono e1) i) fun _ _ _ e2 _ ho => hSubstitute_ref v ho ((hs.mono e1).mono e2)

theorem aVecSubstitute_ref {a : AVec R} {x : Vec R} (v : Var R) {s : HScalar R} {t : Scalar R} {h : Heap R}
    (ha : Rep lo LV h.exps a x) (hs : Rep lo LS h.exps s t) :
    Ref lo LV (aVecSubstitute a v s) h (x.substitute v t) := by
  cases a with
  | k l => rw [ha.vk_inv]; exact Ref.pure Rep.vk
  | v l => obtain rfl := ha.vv_inv; exact aVecSubstituteAll_ref v ha hs
  | m l =>
    obtain ⟨n, rfl, hm⟩ := ha.vm_inv
    exact aVecSubstituteAll_ref v ha hs
  | p l =>
    obtain ⟨n, rfl, hm⟩ := ha.vp_inv
    exact aVecSubstituteAll_ref v ha hs

theorem aMatSubstituteAll_ref {a : AMat R} {x : Mat R} (v : Var R) {s : HScalar R} {t : Scalar R} {h : Heap R}
    (ha : Rep lo LMt h.exps a x) (hs : Rep lo LS h.exps s t) : Ref lo LMt (do
      mVal a Mat.check
      hCheck (.var v)
      hCheck s
      let d ← mVal a Mat.dims
      let es ← PM.traverse (fun (i : Nat) => PM.traverse (fun (j : Nat) => do
        let x ← aMatAt a i j
        hSubstitute x v s) (List.range d.2)) (List.range d.1)
      aConcretizeMat es) h (do
      x.check
      v.check
      t.check
      let d ← x.dims
      concretizeMat (← (List.range d.1).mapM (fun (i : Nat) => (List.range d.2).mapM (fun (j : Nat) => do
        let y ← x.at i j
        y.substitute v t)))) := by
  refine mVal_bind ha fun _ _ => ?_
  refine hCheck_bind (e := .var v) (lo1 := 0) Rep.var ?_
  refine hCheck_bind hs ?_
  refine mVal_bind ha fun n _ => ?_
  refine Ref.bind (Ref.each _ fun i h1 e1 => Ref.each _ fun j h2 e2 => ?_) fun _ _ _ _ _ ho => aConcretizeMat_ref ho
  have e3 := e1.trans e2
  exact Ref.bind (aMatAt_ref (ha.mono e3) i j) fun _ _ _ e2 _ ho => hSubstitute_ref v ho ((hs.mono e3).mono e2)

theorem aMatSubstitute_ref {a : AMat R} {x : Mat R} (v : Var R) {s : HScalar R} {t : Scalar R} {h : Heap R}
    (ha : Rep lo LMt h.exps a x) (hs : Rep lo LS h.exps s t) :
    Ref lo LMt (aMatSubstitute a v s) h (x.substitute v t) := by
  cases a with
  | k l => rw [ha.matk_inv]; exact Ref.pure Rep.matk
  | v l => obtain rfl := ha.matv_inv; exact aMatSubstituteAll_ref v ha hs
  | m l =>
    obtain ⟨n, rfl, hm⟩ := ha.matm_inv
    exact aMatSubstituteAll_ref v ha hs
  | p l =>
    obtain ⟨n, rfl, hm⟩ := ha.matp_inv
    exact aMatSubstituteAll_ref v ha hs

theorem Rep.kv_inv {h : ExpHeap} {a : Var R × HScalar R} {x : Var R × Scalar R} (hx : Rep lo LKV h a x) :
    a.1 = x.1 ∧ Rep lo LS h a.2 x.2 := by
  obtain ⟨h1, rfl⟩ := hx
  exact ⟨rfl, h1, rfl⟩

theorem aVecSubstMap_ref {a : AVec R} {x : Vec R} {sm : HSubMap R} {s : SubMap R} {h : Heap R}
    (ha : Rep lo LV h.exps a x) (hs : Rep lo LKV.list h.exps sm s) : Ref lo LV (aVecSubstMap a sm) h (x.substMap s) := by
  have h1 : Ref lo LV (vVal a Vec.check >>= fun _ => hCheckMap sm >>= fun _ =>
      PM.foldl (fun acc (kv : Var R × HScalar R) => aVecSubstitute acc kv.1 kv.2) sm a) h
      (x.check >>= fun _ => checkSubMap s >>= fun _ => s.foldlM (fun (acc : Vec R) kv => acc.substitute kv.1 kv.2) x) := by
    refine vVal_bind ha fun _ _ => hCheckMap_bind hs ?_
    refine Ref.foldl _ hs ha fun kv kx acc z h1 e1 hkv hacc => ?_
    obtain ⟨h2, h3⟩ := hkv.kv_inv
    rw [h2]
    exact aVecSubstitute_ref _ hacc h3
  cases a with
  | k l => rw [ha.vk_inv]; exact Ref.pure Rep.vk
  | v l => obtain rfl := ha.vv_inv; exact h1
  | m l =>
    obtain ⟨n, rfl, hm⟩ := ha.vm_inv
    exact h1
  | p l =>
    obtain ⟨n, rfl, hm⟩ := ha.vp_inv
    exact h1

theorem aMatSubstMap_ref {a : AMat R} {x : Mat R} {sm : HSubMap R} {s : SubMap R} {h : Heap R}
    (ha : Rep lo LMt h.exps a x) (hs : Rep lo LKV.list h.exps sm s) :
    Ref lo LMt (aMatSubstMap a sm) h (x.substMap s) := by
  have h1 : Ref lo LMt (mVal a Mat.check >>= fun _ => hCheckMap sm >>= fun _ =>
      PM.foldl (fun acc (kv : Var R × HScalar R) => aMatSubstitute acc kv.1 kv.2) sm a) h
      (x.check >>= fun _ => checkSubMap s >>= fun _ => s.foldlM (fun (acc : Mat R) kv => acc.substitute kv.1 kv.2) x) := by
    refine mVal_bind ha fun _ _ => hCheckMap_bind hs ?_
    refine Ref.foldl _ hs ha fun kv kx acc z h1 e1 hkv hacc => ?_
    obtain ⟨h2, h3⟩ := hkv.kv_inv
    rw [h2]
    exact aMatSubstitute_ref _ hacc h3
  cases a with
  | k l => rw [ha.matk_inv]; exact Ref.pure Rep.matk
  | v l => obtain rfl := ha.matv_inv; exact h1
  | m l =>
    obtain ⟨n, rfl, hm⟩ := ha.matm_inv
    exact h1
  | p l =>
    obtain ⟨n, rfl, hm⟩ := ha.matp_inv
    exact h1

theorem aSubstitute_ref {a : AExpr R} {x : Expr R} (v : Var R) {s : HScalar R} {t : Scalar R} {h : Heap R}
    (ha : Rep lo LE h.exps a x) (hs : Rep lo LS h.exps s t) : Ref lo LE (aSubstitute a v s) h (x.substitute v t) := by
  cases a with
  | s c =>
    obtain ⟨t, rfl, hc⟩ := ha.es_inv
    exact Ref.bind (hSubstitute_ref v hc hs) fun _ _ _ _ _ ho => Ref.pure ho.es
  | v c =>
    obtain ⟨t, rfl, hc⟩ := ha.ev_inv
    exact Ref.bind (aVecSubstitute_ref v hc hs) fun _ _ _ _ _ ho => Ref.pure ho.ev
  | m c =>
    obtain ⟨t, rfl, hc⟩ := ha.em_inv
    exact Ref.bind (aMatSubstitute_ref v hc hs) fun _ _ _ _ _ ho => Ref.pure ho.em

theorem aSubstMap_ref {a : AExpr R} {x : Expr R} {sm : HSubMap R} {s : SubMap R} {h : Heap R}
    (ha : Rep lo LE h.exps a x) (hs : Rep lo LKV.list h.exps sm s) : Ref lo LE (aSubstMap a sm) h (x.substMap s) := by
  cases a with
  | s c =>
    obtain ⟨t, rfl, hc⟩ := ha.es_inv
    exact Ref.bind (hSubstMap_ref hc hs) fun _ _ _ _ _ ho => Ref.pure ho.es
  | v c =>
    obtain ⟨t, rfl, hc⟩ := ha.ev_inv
    exact Ref.bind (aVecSubstMap_ref hc hs) fun _ _ _ _ _ ho => Ref.pure ho.ev
  | m c =>
    obtain ⟨t, rfl, hc⟩ := ha.em_inv
    exact Ref.bind (aMatSubstMap_ref hc hs) fun _ _ _ _ _ ho => Ref.pure ho.em

end Verif
