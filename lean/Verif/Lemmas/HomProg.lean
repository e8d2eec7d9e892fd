import Verif.Lemmas.HomText
import Verif.Props.CheckedCon
import Verif.Props.ArrayCheckedCon

/-!
# Maps between number types: programs

The run of a program with mapped numbers is the mapped run.
-/

namespace Verif

set_option linter.unusedSimpArgs false

variable {R S : Type}

/-- The same calls with other numbers. -/
def Prog.mapNum (f : Recode R S) : Prog R → Prog S
  | .k c => .k (f c)
  | .var v => .var (v.mapNum f)
  | .plus a b => .plus (a.mapNum f) (b.mapNum f)
  | .minus a b => .minus (a.mapNum f) (b.mapNum f)
  | .mul a b => .mul (a.mapNum f) (b.mapNum f)
  | .pow a n => .pow (a.mapNum f) n
  | .simp a => .simp (a.mapNum f)
  | .deriv a v => .deriv (a.mapNum f) (v.mapNum f)
  | .subst a v s => .subst (a.mapNum f) (v.mapNum f) (s.mapNum f)
  | .substMap a n key val => .substMap (a.mapNum f) n (fun j => (key j).mapNum f) (fun j => (val j).mapNum f)

def AProg.mapNum (f : Recode R S) : {r c : ℕ} → AProg R r c → AProg S r c
  | _, _, .scalar p => .scalar (p.mapNum f)
  | _, _, .kvec g => .kvec (fun i => f (g i))
  | _, _, .vvec g => .vvec (fun i => (g i).mapNum f)
  | _, _, .kmat g => .kmat (fun i j => f (g i j))
  | _, _, .vmat g => .vmat (fun i j => (g i j).mapNum f)
  | _, _, .plus a b => .plus (a.mapNum f) (b.mapNum f)
  | _, _, .minus a b => .minus (a.mapNum f) (b.mapNum f)
  | _, _, .mul a b => .mul (a.mapNum f) (b.mapNum f)
  | _, _, .plusS a s => .plusS (a.mapNum f) (s.mapNum f)
  | _, _, .minusS a s => .minusS (a.mapNum f) (s.mapNum f)
  | _, _, .mulS a s => .mulS (a.mapNum f) (s.mapNum f)
  | _, _, .sPlus s a => .sPlus (s.mapNum f) (a.mapNum f)
  | _, _, .sMinus s a => .sMinus (s.mapNum f) (a.mapNum f)
  | _, _, .sMul s a => .sMul (s.mapNum f) (a.mapNum f)
  | _, _, .pow a n => .pow (a.mapNum f) n
  | _, _, .transpose a => .transpose (a.mapNum f)
  | _, _, .simp a => .simp (a.mapNum f)
  | _, _, .at a i j => .at (a.mapNum f) i j
  | _, _, .hstack cs a => .hstack cs (fun k => (a k).mapNum f)
  | _, _, .vstack rs a => .vstack rs (fun k => (a k).mapNum f)
  | _, _, .deriv a v => .deriv (a.mapNum f) (v.mapNum f)
  | _, _, .subst a v s => .subst (a.mapNum f) (v.mapNum f) (s.mapNum f)

def ConProg.mapNum (f : Recode R S) : ConProg R → ConProg S
  | .compare a b s => .compare (a.mapNum f) (b.mapNum f) s
  | .simplify c => .simplify (c.mapNum f)
  | .scale c x => .scale (c.mapNum f) (f x)
  | .subst c v s => .subst (c.mapNum f) (v.mapNum f) (s.mapNum f)
  | .substMap c n key val => .substMap (c.mapNum f) n (fun j => (key j).mapNum f) (fun j => (val j).mapNum f)

def AConProg.mapNum (f : Recode R S) : {r c : ℕ} → AConProg R r c → AConProg S r c
  | _, _, .compare a b s => .compare (a.mapNum f) (b.mapNum f) s
  | _, _, .compareK a x s => .compareK (a.mapNum f) (f x) s
  | _, _, .kCompare x a s => .kCompare (f x) (a.mapNum f) s
  | _, _, .simplify p => .simplify (p.mapNum f)
  | _, _, .subst p v s => .subst (p.mapNum f) (v.mapNum f) (s.mapNum f)
  | _, _, .at p i j => .at (p.mapNum f) i j
  | _, _, .scale p x => .scale (p.mapNum f) (f x)

namespace NumHom

variable [GoNum R] [GoNum S] (h : NumHom R S)

theorem subMap_run {n : ℕ} (key : Fin n → Var R) (val : Fin n → Prog R)
    (hv : ∀ j, ((val j).mapNum h.f).run = Scalar.mapNum h.f <$> (val j).run) :
    (List.finRange n).mapM (fun j => do
      let s ← ((val j).mapNum h.f).run
      return ((key j).mapNum h.f, s)) = SubMap.mapNum h.f <$> (List.finRange n).mapM (fun j => do
      let s ← (val j).run
      return (key j, s)) :=
  go_mapM' (fun j => go_bind _ (hv j) fun _ => rfl) _

theorem prog_run (hk : h.Keys) (p : Prog R) : (p.mapNum h.f).run = Scalar.mapNum h.f <$> p.run := by
  induction p with
  | k c => rfl
  | var v => rfl
  | plus a b iha ihb => exact go_bind _ iha fun _ => go_bind _ ihb fun _ => h.plus _ _
  | minus a b iha ihb => exact go_bind _ iha fun _ => go_bind _ ihb fun _ => h.minus _ _
  | mul a b iha ihb => exact go_bind _ iha fun _ => go_bind _ ihb fun _ => h.smul _ _
  | pow a n iha => exact go_bind _ iha fun _ => h.power _ _
  | simp a iha => exact go_bind _ iha fun _ => h.asSimplified _
  | deriv a v iha => exact go_bind _ iha fun _ => h.derivative _ _
  | subst a v s iha ihs => exact go_bind _ iha fun _ => go_bind _ ihs fun _ => h.substitute _ _ _
  | substMap a n key val iha ihv =>
    exact go_bind _ iha fun _ => go_bind _ (h.subMap_run key val ihv) fun _ => h.substMap hk _ _

theorem asScalar (e : Expr R) : AProg.asScalar (e.mapNum h.f) = Scalar.mapNum h.f <$> AProg.asScalar e := by
  cases e <;> rfl

theorem expr_power (e : Expr R) (n : ℤ) : (e.mapNum h.f).power n = Expr.mapNum h.f <$> e.power n := by
  cases e with
  | s e => exact go_bind _ (h.power e n) fun _ => rfl
  | v e => exact go_bind _ (h.vec_power e n) fun _ => rfl
  | m e => exact go_bind _ (h.mat_power e n) fun _ => rfl

theorem aprog_run (hk : h.Keys) {r c : ℕ} (p : AProg R r c) : (p.mapNum h.f).run = Expr.mapNum h.f <$> p.run := by
  induction p with
  | scalar p => exact go_bind _ (h.prog_run hk p) fun _ => rfl
  | kvec g => simp [AProg.mapNum, AProg.run, Function.comp_def]
  | vvec g => simp [AProg.mapNum, AProg.run, Function.comp_def]
  | kmat g => simp [AProg.mapNum, AProg.run, Function.comp_def]
  | vmat g => simp [AProg.mapNum, AProg.run, Function.comp_def]
  | plus a b iha ihb => exact go_bind _ iha fun _ => go_bind _ ihb fun _ => h.expr_plus _ _
  | minus a b iha ihb => exact go_bind _ iha fun _ => go_bind _ ihb fun _ => h.expr_minus _ _
  | mul a b iha ihb => exact go_bind _ iha fun _ => go_bind _ ihb fun _ => h.expr_mul _ _
  | plusS a s iha ihs =>
    exact go_bind _ iha fun _ => go_bind _ ihs fun _ => go_bind _ (h.asScalar _) fun y => h.expr_plus _ (.s y)
  | minusS a s iha ihs =>
    exact go_bind _ iha fun _ => go_bind _ ihs fun _ => go_bind _ (h.asScalar _) fun y => h.expr_minus _ (.s y)
  | mulS a s iha ihs =>
    exact go_bind _ iha fun _ => go_bind _ ihs fun _ => go_bind _ (h.asScalar _) fun y => h.expr_mul _ (.s y)
  | sPlus s a ihs iha =>
    exact go_bind _ ihs fun _ => go_bind _ (h.asScalar _) fun y => go_bind _ iha fun _ => h.expr_plus (.s y) _
  | sMinus s a ihs iha =>
    exact go_bind _ ihs fun _ => go_bind _ (h.asScalar _) fun y => go_bind _ iha fun _ => h.expr_minus (.s y) _
  | sMul s a ihs iha =>
    exact go_bind _ ihs fun _ => go_bind _ (h.asScalar _) fun y => go_bind _ iha fun _ => h.expr_mul (.s y) _
  | pow a n iha => exact go_bind _ iha fun _ => h.expr_power _ _
  | transpose a iha => exact go_bind _ iha fun _ => h.expr_transpose _
  | simp a iha => exact go_bind _ iha fun _ => h.expr_asSimplified _
  | «at» a i j iha => exact go_bind _ iha fun _ => go_bind _ (h.expr_at _ _ _) fun _ => rfl
  | hstack cs a iha => exact go_bind _ (go_mapM' iha _) fun _ => h.hstack _
  | vstack rs a iha => exact go_bind _ (go_mapM' iha _) fun _ => h.vstack _
  | deriv a v iha => exact go_bind _ iha fun _ => h.expr_derivative _ _
  | subst a v s iha ihs =>
    exact go_bind _ iha fun _ => go_bind _ ihs fun _ => go_bind _ (h.asScalar _) fun _ => h.expr_substitute _ _ _

theorem conProg_run (hk : h.Keys) (p : ConProg R) : (p.mapNum h.f).run = SCon.mapNum h.f <$> p.run := by
  induction p with
  | compare a b s =>
    refine go_bind _ (h.prog_run hk a) fun x => go_bind _ (h.prog_run hk b) fun y =>
      go_bind _ (h.comparison (.s x) (.s y) s) fun c => ?_
    cases c <;> rfl
  | simplify c ih => exact go_bind _ ih fun _ => h.scon_simplify _
  | scale c x ih => exact go_bind _ ih fun _ => h.scon_scaleBy _ _
  | subst c v s ih => exact go_bind _ ih fun _ => go_bind _ (h.prog_run hk s) fun _ => h.scon_substitute _ _ _
  | substMap c n key val ih =>
    exact go_bind _ ih fun _ => go_bind _ (h.subMap_run key val fun j => h.prog_run hk (val j)) fun _ =>
      h.scon_substMap hk _ _

theorem aconProg_run (hk : h.Keys) {r c : ℕ} (p : AConProg R r c) : (p.mapNum h.f).run = Con.mapNum h.f <$> p.run := by
  induction p with
  | compare a b s => exact go_bind _ (h.aprog_run hk a) fun _ => go_bind _ (h.aprog_run hk b) fun _ => h.comparison _ _ s
  | compareK a x s => exact go_bind _ (h.aprog_run hk a) fun _ => h.comparison _ (.s (.k x)) s
  | kCompare x a s => exact go_bind _ (h.aprog_run hk a) fun _ => h.comparison (.s (.k x)) _ s
  | simplify p ih => exact go_bind _ ih fun _ => h.con_simplify _
  | subst p v s ih =>
    exact go_bind _ ih fun _ => go_bind _ (h.aprog_run hk s) fun _ => go_bind _ (h.asScalar _) fun _ =>
      h.con_substitute _ _ _
  | «at» p i j ih =>
    refine go_bind _ ih fun k => ?_
    cases k with
    | s k => rfl
    | v k => exact go_bind _ (h.vcon_atVec k _) fun _ => rfl
    | m k => exact go_bind _ (h.mcon_at k _ _) fun _ => rfl
  | scale p x ih =>
    refine go_bind _ ih fun k => ?_
    cases k with
    | s k => exact go_bind _ (h.scon_scaleBy k x) fun _ => rfl
    | v k => rfl
    | m k => rfl

end NumHom

end Verif
