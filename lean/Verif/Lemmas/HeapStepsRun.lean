import Verif.Model.HeapSteps
import Verif.Lemmas.HeapRef

/-!
# A goroutine alone runs the functions of `Model/HeapArith`
-/

set_option linter.unusedSectionVars false

namespace Verif

open GoNum

variable {R : Type} {α β : Type}

theorem SM.run_pure (a : α) : (pure a : SM R α).run = (pure a : PM (Heap R) α) := rfl

theorem SM.run_bind (x : SM R α) (f : α → SM R β) : (x >>= f).run = x.run >>= fun a => (f a).run := by
  funext h
  induction x generalizing h with
  | ret r => cases r <;> rfl
  | read k ih => exact ih h h
  | alloc l k ih => exact ih _ _
  | write a g k ih => exact ih _

theorem SM.run_look (f : Heap R → Go α) : (SM.look f).run = PM.read f := rfl
theorem SM.run_panic (e : Err) : (SM.panic e : SM R α).run = PM.panic e := rfl
theorem SM.run_new (l : List Int) : (SM.new l : SM R Nat).run = Verif.alloc l := rfl

theorem SM.run_traverse {f : α → SM R β} {g : α → PM (Heap R) β} (h : ∀ a, (f a).run = g a) (l : List α) :
    (SM.traverse f l).run = PM.traverse g l := by
  induction l with
  | nil => rfl
  | cons a l ih =>
    show (f a >>= fun b => SM.traverse f l >>= fun bs => pure (b :: bs)).run =
      g a >>= fun b => PM.traverse g l >>= fun bs => pure (b :: bs)
    simp only [SM.run_bind, SM.run_pure, h, ih]

theorem SM.run_foldl {f : β → α → SM R β} {g : β → α → PM (Heap R) β} (h : ∀ b a, (f b a).run = g b a)
    (l : List α) (b : β) : (SM.foldl f l b).run = PM.foldl g l b := by
  induction l generalizing b with
  | nil => rfl
  | cons a l ih =>
    show (f b a >>= fun b' => SM.foldl f l b').run = g b a >>= fun b' => PM.foldl g l b'
    simp only [SM.run_bind, h, ih]

/-- A recovered panic. -/
theorem SM.run_attempt (x : SM R α) (h : Heap R) : x.attempt.run h = (.ok (x.run h).1, (x.run h).2) := by
  induction x generalizing h with
  | ret r => rfl
  | read k ih => exact ih h h
  | alloc l k ih => exact ih _ _
  | write a g k ih => exact ih _

section
variable [GoNum R]

theorem sCheck_run (e : HScalar R) : (sCheck e).run = hCheck e := rfl
theorem sNew_run (m : Mono R) : (sNew m).run = hNew m := rfl
theorem sCopy_run (m : HMono R) : (sCopy m).run = hCopy m := by
  unfold sCopy hCopy
  simp only [SM.run_bind, SM.run_look, sNew_run]

theorem sMonoSimplified_run (m : HMono R) : (sMonoSimplified m).run = hMonoSimplified m := by
  unfold sMonoSimplified hMonoSimplified
  rw [SM.run_bind, SM.run_look]
  congr 1; funext s; cases s <;> rfl

theorem sSimplifyOut_run (st : R × List (HMono R)) : (sSimplifyOut st).run = hSimplifyOut st := by
  unfold sSimplifyOut hSimplifyOut
  dsimp only
  split
  · split
    · simp only [SM.run_bind, SM.run_pure, sNew_run]
    · rfl
  · simp only [SM.run_bind, SM.run_pure, sNew_run]

theorem sPolySimplify_run (p : HPoly R) : (sPolySimplify p).run = hPolySimplify p := by
  unfold sPolySimplify hPolySimplify
  simp only [SM.run_bind, SM.run_look, sCheck_run, sSimplifyOut_run]

theorem sPolySimplified_run (p : HPoly R) : (sPolySimplified p).run = hPolySimplified p := by
  unfold sPolySimplified hPolySimplified
  simp only [SM.run_bind, SM.run_look, sPolySimplify_run]
  congr 1; funext q; congr 1; funext s
  cases s with
  | mono m =>
    dsimp only
    rcases q.monos with _ | ⟨a, _ | ⟨b, l⟩⟩ <;> rfl
  | _ => rfl

theorem sSimplified_run (e : HScalar R) : (sSimplified e).run = hSimplified e := by
  cases e with
  | mono m => exact sMonoSimplified_run m
  | poly p => exact sPolySimplified_run p
  | _ => rfl

theorem sPolyPlusK_run (p : HPoly R) (c : R) : (sPolyPlusK p c).run = hPolyPlusK p c := by
  unfold sPolyPlusK hPolyPlusK
  rw [SM.run_bind, sCheck_run]
  congr 1; funext _
  cases p.monos.findIdx? (·.vars.isEmpty) <;> simp only [SM.run_bind, sNew_run, sPolySimplified_run]

theorem sPolyPlusVar_run (p : HPoly R) (v : Var R) : (sPolyPlusVar p v).run = hPolyPlusVar p v := by
  unfold sPolyPlusVar hPolyPlusVar
  simp only [SM.run_bind, sCheck_run, SM.run_look]
  congr 1; funext _; congr 1; funext _; congr 1; funext o
  cases o <;> simp only [SM.run_bind, sNew_run, sPolySimplified_run]

theorem sPolyPlusPoly_run (p q : HPoly R) : (sPolyPlusPoly p q).run = hPolyPlusPoly p q := by
  unfold sPolyPlusPoly hPolyPlusPoly
  simp only [SM.run_bind, sCheck_run, sPolySimplified_run, sSimplified_run]

theorem sPolyPlusMono_run (p : HPoly R) (m : HMono R) : (sPolyPlusMono p m).run = hPolyPlusMono p m := by
  unfold sPolyPlusMono hPolyPlusMono
  simp only [SM.run_bind, sCheck_run, sCopy_run, sPolyPlusPoly_run, sSimplified_run]

theorem sMonoPlus_run (m : HMono R) (e : HScalar R) : (sMonoPlus m e).run = hMonoPlus m e := by
  unfold sMonoPlus hMonoPlus
  simp only [SM.run_bind, sCheck_run]
  congr 1; funext _; congr 1; funext _
  cases e with
  | k c =>
    dsimp only
    split
    · exact sSimplified_run _
    · simp only [SM.run_bind, sCopy_run, sNew_run, sSimplified_run]
  | var v =>
    simp only [SM.run_bind, SM.run_look, sCopy_run]
    congr 1; funext b; congr 1; funext m'
    split
    · exact sSimplified_run _
    · simp only [SM.run_bind, sNew_run, sSimplified_run]
  | mono r =>
    simp only [SM.run_bind, SM.run_look, sCopy_run]
    congr 1; funext b; congr 1; funext m'
    split <;> exact sSimplified_run _
  | poly p => simp only [SM.run_bind, sCopy_run, sPolyPlusMono_run, sSimplified_run]

theorem sPolyPlus_run (p : HPoly R) (e : HScalar R) : (sPolyPlus p e).run = hPolyPlus p e := by
  cases e with
  | k c => exact sPolyPlusK_run p c
  | var v => exact sPolyPlusVar_run p v
  | mono m => exact sPolyPlusMono_run p m
  | poly q => exact sPolyPlusPoly_run p q

theorem sVarPlus_run (v : Var R) (e : HScalar R) : (sVarPlus v e).run = hVarPlus v e := by
  unfold sVarPlus hVarPlus
  simp only [SM.run_bind, sCheck_run]
  congr 1; funext _
  cases e with
  | k c => simp only [SM.run_bind, sNew_run, sSimplified_run]
  | var w =>
    dsimp only
    split <;> simp only [SM.run_bind, sNew_run, sSimplified_run]
  | mono m => simp only [SM.run_bind, sMonoPlus_run, sSimplified_run]
  | poly p => simp only [SM.run_bind, sPolyPlusVar_run, sSimplified_run]

theorem sKPlus_run (c : R) (e : HScalar R) : (sKPlus c e).run = hKPlus c e := by
  unfold sKPlus hKPlus
  simp only [SM.run_bind, sCheck_run]
  congr 1; funext _
  cases e with
  | k d => rfl
  | var v => exact sVarPlus_run v _
  | mono m => exact sMonoPlus_run m _
  | poly p => exact sPolyPlusK_run p c

theorem sPlus_run (a b : HScalar R) : (sPlus a b).run = hPlus a b := by
  cases a with
  | k c => exact sKPlus_run c b
  | var v => exact sVarPlus_run v b
  | mono m => exact sMonoPlus_run m b
  | poly p => exact sPolyPlus_run p b

theorem sMonoMulK_run (m : HMono R) (c : R) : (sMonoMulK m c).run = hMonoMulK m c := by
  unfold sMonoMulK hMonoMulK
  simp only [SM.run_bind, sCopy_run, SM.run_pure]

theorem sMonoMulVar_run (m : HMono R) (v : Var R) : (sMonoMulVar m v).run = hMonoMulVar m v := by
  unfold sMonoMulVar hMonoMulVar
  rw [SM.run_bind, sCopy_run]
  congr 1; funext m'
  cases findVar v m.vars
  · simp only [SM.run_bind, SM.run_look, sNew_run]
  · rfl

theorem sMonoMulMono_run (m r : HMono R) : (sMonoMulMono m r).run = hMonoMulMono m r := by
  unfold sMonoMulMono hMonoMulMono
  simp only [SM.run_bind, SM.run_look, sNew_run]

theorem sPolyMulK_run (p : HPoly R) (c : R) : (sPolyMulK p c).run = hPolyMulK p c := by
  unfold sPolyMulK hPolyMulK
  simp only [SM.run_bind, sCheck_run, SM.run_traverse (fun m => sMonoMulK_run m c), sPolySimplified_run]

theorem sPolyMulVar_run (p : HPoly R) (v : Var R) : (sPolyMulVar p v).run = hPolyMulVar p v := by
  unfold sPolyMulVar hPolyMulVar
  simp only [SM.run_bind, sCheck_run, SM.run_traverse (fun m => sMonoMulVar_run m v), sPolySimplified_run]

theorem sPolyMulMono_run (p : HPoly R) (r : HMono R) : (sPolyMulMono p r).run = hPolyMulMono p r := by
  unfold sPolyMulMono hPolyMulMono
  simp only [SM.run_bind, sCheck_run, SM.run_traverse (fun m => sMonoMulMono_run m r), sPolySimplified_run]

theorem sPolyMulPoly_run (p q : HPoly R) : (sPolyMulPoly p q).run = hPolyMulPoly p q := by
  unfold sPolyMulPoly hPolyMulPoly
  have h : ∀ (acc : HScalar R) (r : HMono R), (sPolyMulMono p r >>= fun prod => sPlus acc prod).run =
      hPolyMulMono p r >>= fun prod => hPlus acc prod := fun acc r => by
    simp only [SM.run_bind, sPolyMulMono_run, sPlus_run]
  simp only [SM.run_bind, sCheck_run, SM.run_foldl h, sSimplified_run]

theorem sPolyMul_run (p : HPoly R) (e : HScalar R) : (sPolyMul p e).run = hPolyMul p e := by
  cases e with
  | k c => exact sPolyMulK_run p c
  | var v => exact sPolyMulVar_run p v
  | mono m => exact sPolyMulMono_run p m
  | poly q => exact sPolyMulPoly_run p q

theorem sMonoMul_run (m : HMono R) (e : HScalar R) : (sMonoMul m e).run = hMonoMul m e := by
  unfold sMonoMul hMonoMul
  simp only [SM.run_bind, sCheck_run]
  congr 1; funext _; congr 1; funext _
  cases e with
  | k c => simp only [SM.run_bind, sMonoMulK_run, SM.run_pure]
  | var v => simp only [SM.run_bind, sMonoMulVar_run, SM.run_pure]
  | mono r => simp only [SM.run_bind, sMonoMulMono_run, SM.run_pure]
  | poly p => exact sPolyMulMono_run p m

theorem sVarMul_run (v : Var R) (e : HScalar R) : (sVarMul v e).run = hVarMul v e := by
  unfold sVarMul hVarMul
  simp only [SM.run_bind, sCheck_run]
  congr 1; funext _; congr 1; funext _
  cases e with
  | k c => simp only [SM.run_bind, sNew_run, sSimplified_run]
  | var w =>
    dsimp only
    split <;> simp only [SM.run_bind, sNew_run, sSimplified_run]
  | mono m => simp only [SM.run_bind, sMonoMul_run, sSimplified_run]
  | poly p => simp only [SM.run_bind, sPolyMulVar_run, sSimplified_run]

theorem sKMul_run (c : R) (e : HScalar R) : (sKMul c e).run = hKMul c e := by
  unfold sKMul hKMul
  simp only [SM.run_bind, sCheck_run]
  congr 1; funext _
  cases e with
  | k d => rfl
  | var v => exact sVarMul_run v _
  | mono m => exact sMonoMul_run m _
  | poly p => exact sPolyMulK_run p c

theorem sMul_run (a b : HScalar R) : (sMul a b).run = hMul a b := by
  cases a with
  | k c => exact sKMul_run c b
  | var v => exact sVarMul_run v b
  | mono m => exact sMonoMul_run m b
  | poly p => exact sPolyMul_run p b

theorem sMulF64_run (e : HScalar R) (c : R) : (sMulF64 e c).run = hMulF64 e c := by
  cases e with
  | k d => exact sKMul_run d _
  | mono m => exact sMonoMul_run m _
  | _ =>
    unfold sMulF64 hMulF64
    simp only [SM.run_bind, sMul_run, sSimplified_run]

theorem sMinus_run (a b : HScalar R) : (sMinus a b).run = hMinus a b := by
  unfold sMinus hMinus
  simp only [SM.run_bind, sCheck_run, sMulF64_run, sPlus_run]

theorem sPowLoop_run (base : HScalar R) (n : ℕ) : ∀ acc, (sPowLoop base n acc).run = hPowLoop base n acc := by
  induction n with
  | zero => exact fun _ => rfl
  | succ n ih =>
    intro acc
    unfold sPowLoop hPowLoop
    simp only [SM.run_bind, sMul_run, ih]

theorem sPower_run (base : HScalar R) (n : ℤ) : (sPower base n).run = hPower base n := by
  unfold sPower hPower
  simp only [SM.run_bind, sCheck_run]
  congr 1; funext _
  split
  · rfl
  · exact sPowLoop_run base _ _

theorem sVarSubstitute_run (v w : Var R) (s : HScalar R) : (sVarSubstitute v w s).run = hVarSubstitute v w s := by
  unfold sVarSubstitute hVarSubstitute
  simp only [SM.run_bind, sCheck_run]
  congr 1; funext _; congr 1; funext _; congr 1; funext _
  split <;> rfl

theorem sMonoSubstitute_run (m : HMono R) (w : Var R) (s : HScalar R) :
    (sMonoSubstitute m w s).run = hMonoSubstitute m w s := by
  unfold sMonoSubstitute hMonoSubstitute
  simp only [SM.run_bind, sCheck_run]
  congr 1; funext _; congr 1; funext _; congr 1; funext _
  cases findVar w m.vars
  · rfl
  · have h : ∀ (prod : HScalar R) (ve : Var R × ℤ), (sVarSubstitute ve.1 w s >>= fun sub =>
        sPower sub ve.2 >>= fun pw => sMul prod pw).run = hVarSubstitute ve.1 w s >>= fun sub =>
        hPower sub ve.2 >>= fun pw => hMul prod pw := fun prod ve => by
      simp only [SM.run_bind, sVarSubstitute_run, sPower_run, sMul_run]
    simp only [SM.run_bind, SM.run_look, SM.run_foldl h]

theorem sPolySubstitute_run (p : HPoly R) (w : Var R) (s : HScalar R) :
    (sPolySubstitute p w s).run = hPolySubstitute p w s := by
  unfold sPolySubstitute hPolySubstitute
  have h : ∀ (acc : HScalar R) (m : HMono R), (sMonoSubstitute m w s >>= fun t => sPlus acc t).run =
      hMonoSubstitute m w s >>= fun t => hPlus acc t := fun acc m => by
    simp only [SM.run_bind, sMonoSubstitute_run, sPlus_run]
  simp only [SM.run_bind, sCheck_run, SM.run_foldl h, sSimplified_run]

theorem sSubstitute_run (e : HScalar R) (w : Var R) (s : HScalar R) :
    (sSubstitute e w s).run = hSubstitute e w s := by
  cases e with
  | k c => rfl
  | var v => exact sVarSubstitute_run v w s
  | mono m => exact sMonoSubstitute_run m w s
  | poly p => exact sPolySubstitute_run p w s

theorem sCheckMap_run (sm : HSubMap R) : (sCheckMap sm).run = hCheckMap sm := rfl

theorem sVarSubstMap_run (v : Var R) (sm : HSubMap R) : (sVarSubstMap v sm).run = hVarSubstMap v sm := by
  unfold sVarSubstMap hVarSubstMap
  simp only [SM.run_bind, sCheck_run, sCheckMap_run]
  congr 1; funext _; congr 1; funext _
  cases sm.find? (fun kv => v.keyEq kv.1) <;> rfl

theorem sMonoSubstMap_run (m : HMono R) (sm : HSubMap R) : (sMonoSubstMap m sm).run = hMonoSubstMap m sm := by
  unfold sMonoSubstMap hMonoSubstMap
  have h : ∀ (out : HScalar R) (ve : Var R × ℤ), (sVarSubstMap ve.1 sm >>= fun sub =>
      sPower sub ve.2 >>= fun pw => sMul out pw).run = hVarSubstMap ve.1 sm >>= fun sub =>
      hPower sub ve.2 >>= fun pw => hMul out pw := fun out ve => by
    simp only [SM.run_bind, sVarSubstMap_run, sPower_run, sMul_run]
  simp only [SM.run_bind, sCheck_run, sCheckMap_run, SM.run_look, SM.run_foldl h]

theorem sPolySubstMap_run (p : HPoly R) (sm : HSubMap R) : (sPolySubstMap p sm).run = hPolySubstMap p sm := by
  unfold sPolySubstMap hPolySubstMap
  have h : ∀ (acc : HScalar R) (m : HMono R), (sMonoSubstMap m sm >>= fun t => sPlus acc t).run =
      hMonoSubstMap m sm >>= fun t => hPlus acc t := fun acc m => by
    simp only [SM.run_bind, sMonoSubstMap_run, sPlus_run]
  simp only [SM.run_bind, sCheck_run, sCheckMap_run, SM.run_foldl h]

theorem sSubstMap_run (e : HScalar R) (sm : HSubMap R) : (sSubstMap e sm).run = hSubstMap e sm := by
  cases e with
  | k c => rfl
  | var v => exact sVarSubstMap_run v sm
  | mono m => exact sMonoSubstMap_run m sm
  | poly p => exact sPolySubstMap_run p sm

theorem sMonoDerivative_run (v : Var R) (m : HMono R) : (sMonoDerivative v m).run = pMonoDerivative v m := by
  funext h
  unfold sMonoDerivative pMonoDerivative HMono.derivative
  simp only [SM.run_bind, SM.run_look]
  cases hc : (m.load h.exps).check with
  | error e => rw [PM.bind_error (x := PM.read _) (by exact hc)]; rfl
  | ok u =>
    rw [PM.bind_ok (x := PM.read _) (by exact hc)]
    simp only [Go.ok_bind]
    cases hv : v.check with
    | error e => rw [PM.bind_error (x := PM.read _) (by exact rfl)]; rfl
    | ok u' =>
      rw [PM.bind_ok (x := PM.read _) (by exact rfl)]
      simp only [Go.ok_bind]
      show (match findVar v m.vars with | none => _ | some i => _ : SM R (HScalar R)).run h = _
      cases hf : findVar v m.vars with
      | none => rfl
      | some i =>
        simp only [SM.run_bind, SM.run_look]
        cases he : (h.exps.getD m.addr [])[i]? with
        | none =>
          rw [PM.bind_error (x := PM.read _) (e := .index) (by simp only [PM.read, he])]
          rfl
        | some e =>
          rw [PM.bind_ok (x := PM.read _) (a := e) (by simp only [PM.read, he])]
          by_cases h1 : e = 1 ∧ m.vars.length = 1
          · simp only [if_pos h1]
            rfl
          · simp only [if_neg h1]
            by_cases h2 : e = 1
            · simp only [if_pos h2]
              rfl
            · simp only [if_neg h2]
              have h3 : (h.exps.getD m.addr []).getD i 0 = e := by
                rw [List.getD_eq_getElem?_getD, he]; rfl
              have h4 : ∀ (l : ExpHeap) (a : ℕ), (l.getD a [])[i]? = some e →
                  l.modify a (·.set i (e - 1)) = l.modify a (·.modify i (· - 1)) := by
                intro l a hl
                refine List.ext_getElem? fun j => ?_
                rw [List.getElem?_modify, List.getElem?_modify]
                split
                · next hj =>
                  subst hj
                  cases hla : l[a]? with
                  | none => rfl
                  | some c =>
                    rw [List.getD_eq_getElem?_getD, hla] at hl
                    simp only [Option.map_eq_map, Option.map_some]
                    congr 1
                    refine List.ext_getElem? fun k => ?_
                    rw [List.getElem?_modify, List.getElem?_set]
                    split
                    · next hk =>
                      subst hk
                      simp only [Option.getD_some] at hl
                      have := (List.getElem?_eq_some_iff.mp hl).1
                      rw [if_pos this, hl]; rfl
                    · cases c[k]? <;> rfl
                · rfl
              show ((Except.ok (HScalar.mono ⟨GoNum.mul m.coeff (ofInt ((h.exps.getD m.addr []).getD i 0)), m.addr,
                m.vars⟩), (⟨List.modify h.exps m.addr (fun l => l.set i ((h.exps.getD m.addr []).getD i 0 - 1)),
                  h.pvs⟩ : Heap R)) : Go (HScalar R) × Heap R) = _
              rw [h3, h4 _ _ he]
              rfl

theorem sDerivStep_run (v : Var R) (m : HMono R) : (sDerivStep v m).run = pDerivStep v m := by
  unfold sDerivStep pDerivStep
  split
  · rfl
  · rw [SM.run_bind, sMonoDerivative_run]
    congr 1; funext d
    cases d with
    | k c =>
      dsimp only
      split
      · rfl
      · simp only [SM.run_bind, SM.run_new, SM.run_pure]
    | _ => rfl

theorem sPolyDerivative_run (v : Var R) (p : HPoly R) : (sPolyDerivative v p).run = pPolyDerivative v p := by
  unfold sPolyDerivative pPolyDerivative
  simp only [SM.run_bind, SM.run_look, SM.run_traverse (sDerivStep_run v)]
  congr 1; funext _; congr 1; funext _; congr 1; funext ds
  split <;> rfl

theorem sScalarDerivative_run (v : Var R) (e : HScalar R) : (sScalarDerivative v e).run = pScalarDerivative v e := by
  cases e with
  | k c => rfl
  | var w =>
    unfold sScalarDerivative pScalarDerivative
    simp only [SM.run_bind, SM.run_look]
    congr 1; funext _; congr 1; funext _
    split <;> rfl
  | mono m => exact sMonoDerivative_run v m
  | poly p => exact sPolyDerivative_run v p

theorem sObj_run (objs : List (HScalar R)) (i : ℕ) : (sObj objs i).run = hObj objs i := rfl

theorem sLit_run (e : Scalar R) : (sLit e).run = hLit e := by
  cases e with
  | k c => rfl
  | var v => rfl
  | mono m => rfl
  | poly p =>
    unfold sLit hLit
    simp only [SM.run_bind, SM.run_traverse sNew_run, SM.run_pure]

theorem sAsMono_run (e : HScalar R) : (sAsMono e).run = hAsMono e := by cases e <;> rfl

/-- Every call, made by a goroutine that runs alone, is the call of `Model/HeapArith`. -/
theorem steps_run (objs : List (HScalar R)) (o : HOp R) : (o.steps objs).run = o.call objs := by
  cases o with
  | lit e => exact sLit_run e
  | poly is =>
    have h : ∀ i, (sObj objs i >>= fun e => sAsMono e).run = hObj objs i >>= fun e => hAsMono e := fun i => by
      simp only [SM.run_bind, sObj_run, sAsMono_run]
    unfold HOp.steps HOp.call
    simp only [SM.run_bind, SM.run_traverse h, SM.run_pure]
  | copy i =>
    unfold HOp.steps HOp.call
    rw [SM.run_bind, sObj_run]
    congr 1; funext e
    cases e with
    | mono m => simp only [SM.run_bind, sCopy_run, SM.run_pure]
    | _ => rfl
  | plus i j => simp only [HOp.steps, HOp.call, SM.run_bind, sObj_run, sPlus_run]
  | minus i j => simp only [HOp.steps, HOp.call, SM.run_bind, sObj_run, sMinus_run]
  | mul i j => simp only [HOp.steps, HOp.call, SM.run_bind, sObj_run, sMul_run]
  | power i n => simp only [HOp.steps, HOp.call, SM.run_bind, sObj_run, sPower_run]
  | simp i => simp only [HOp.steps, HOp.call, SM.run_bind, sObj_run, sSimplified_run]
  | subst i v j => simp only [HOp.steps, HOp.call, SM.run_bind, sObj_run, sSubstitute_run]
  | substMap i sm =>
    have h : ∀ kv : Var R × ℕ, (sObj objs kv.2 >>= fun e => pure (kv.1, e)).run =
        hObj objs kv.2 >>= fun e => pure (kv.1, e) := fun kv => by
      simp only [SM.run_bind, sObj_run, SM.run_pure]
    unfold HOp.steps HOp.call
    simp only [SM.run_bind, sObj_run, SM.run_traverse h, sSubstMap_run]
  | deriv i v => simp only [HOp.steps, HOp.call, SM.run_bind, sObj_run, sScalarDerivative_run]

/-- The expressions a program holds at the end, given the outcomes of its calls. -/
def holds : List (HScalar R) → List (Go (HScalar R)) → List (HScalar R)
  | objs, [] => objs
  | objs, r :: rs => holds (keep objs r) rs

/-- A goroutine alone is the program of `Model/HeapArith`. -/
theorem threadProg_run (ops : List (HOp R)) : ∀ (objs : List (HScalar R)) (h : Heap R),
    ∃ rs, (threadProg objs ops).run h = (.ok rs, (AStore.run ⟨objs, h⟩ ops).heap) ∧
      holds objs rs = (AStore.run ⟨objs, h⟩ ops).objs := by
  induction ops with
  | nil => exact fun objs h => ⟨[], rfl, rfl⟩
  | cons o os ih =>
    intro objs h
    have hstep : AStore.step ⟨objs, h⟩ o = ⟨keep objs (o.call objs h).1,
        (o.call objs h).2⟩ := by
      unfold AStore.step
      dsimp only
      rcases o.call objs h with ⟨r, h'⟩
      cases r <;> rfl
    obtain ⟨rs, h1, h2⟩ := ih (keep objs (o.call objs h).1) (o.call objs h).2
    refine ⟨(o.call objs h).1 :: rs, ?_, ?_⟩
    · show ((o.steps objs).attempt >>= fun r => threadProg _ os >>= fun rest => pure (r :: rest)).run h = _
      rw [SM.run_bind, PM.bind_ok (a := (o.call objs h).1) (by rw [SM.run_attempt, steps_run]), SM.run_attempt,
        steps_run]
      dsimp only
      rw [SM.run_bind, PM.bind_ok (by rw [h1]), h1]
      show _ = (Except.ok _, (AStore.run (AStore.step ⟨objs, h⟩ o) os).heap)
      rw [hstep]
      rfl
    · show holds _ rs = (AStore.run (AStore.step ⟨objs, h⟩ o) os).objs
      rw [hstep]
      exact h2

end

end Verif
