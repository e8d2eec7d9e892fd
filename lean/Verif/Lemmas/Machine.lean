import Verif.Model.Machine
import Verif.Lemmas.Subst
import Verif.Lemmas.Families
import Verif.Lemmas.Deriv

/-!
# Machine integers: no difference while degrees are small
-/

set_option linter.unusedSectionVars false

namespace Verif

theorem Go.Ok.bind_congr {α β : Type} {x : Go α} {Q : α → Prop} (h : Go.Ok x Q) {f g : α → Go β}
    (hfg : ∀ a, Q a → f a = g a) : x >>= f = x >>= g := by
  obtain ⟨a, rfl, ha⟩ := h
  exact hfg a ha

theorem Go.bind_congr {α β : Type} {x : Go α} {f g : α → Go β} (hfg : ∀ a, x = .ok a → f a = g a) :
    x >>= f = x >>= g := by
  cases x with
  | error e => rfl
  | ok a => exact hfg a rfl

theorem Go.foldlM_congr {α β : Type} {f g : β → α → Go β} (I : β → Prop) (l : List α) (b : β) (h0 : I b)
    (h : ∀ acc, ∀ a ∈ l, I acc → f acc a = g acc a ∧ Go.Ok (g acc a) I) : l.foldlM f b = l.foldlM g b := by
  induction l generalizing b with
  | nil => rfl
  | cons a l ih =>
    rw [List.foldlM_cons, List.foldlM_cons]
    obtain ⟨h1, h2⟩ := h b a (by simp) h0
    rw [h1]
    exact h2.bind_congr (fun c hc => ih c hc (fun acc x hx => h acc x (by simp [hx])))

theorem Go.mapM_congr {α β : Type} {f g : α → Go β} (l : List α) (h : ∀ a ∈ l, f a = g a) :
    l.mapM f = l.mapM g := by
  induction l with
  | nil => rfl
  | cons a l ih =>
    rw [List.mapM_cons, List.mapM_cons, h a (by simp), ih (fun b hb => h b (by simp [hb]))]

/-- `w` changes no number from `0` to `N`. -/
def KeepsUpTo (w : Int → Int) (N : ℕ) : Prop := ∀ x : Int, 0 ≤ x → x ≤ N → w x = x

theorem KeepsUpTo.mono {w : Int → Int} {M N : ℕ} (h : KeepsUpTo w N) (hMN : M ≤ N) : KeepsUpTo w M :=
  fun x h0 h1 => h x h0 (by omega)

theorem keeps_id (N : ℕ) : KeepsUpTo id N := fun _ _ _ => rfl

/-- A machine with `b`-bit integers keeps all numbers below `2 ^ (b - 1)`. -/
theorem keeps_wrap {b N : ℕ} (h : 2 * N + 1 ≤ 2 ^ b) : KeepsUpTo (wrap b) N := by
  intro x h0 h1
  unfold wrap
  have h2 : (2 * (N : ℤ) + 1) ≤ ((2 ^ b : ℕ) : ℤ) := by exact_mod_cast h
  exact Int.bmod_eq_of_le (by omega) (by omega)

section
variable {R : Type} [GoNum R] {w : Int → Int} {N : ℕ} {P : Var R → Prop}

theorem foldl_keeps (hw : KeepsUpTo w N) (l : List Int) (a : Int) (ha : 0 ≤ a) (hl : ∀ e ∈ l, 0 ≤ e)
    (hs : a + l.sum ≤ N) : l.foldl (fun d e => w (d + e)) a = l.foldl (· + ·) a := by
  induction l generalizing a with
  | nil => rfl
  | cons e l ih =>
    have he := hl e (by simp)
    have h0 : 0 ≤ l.sum := List.sum_nonneg (fun x hx => hl x (by simp [hx]))
    rw [List.sum_cons] at hs
    rw [List.foldl_cons, List.foldl_cons, hw _ (by omega) (by omega)]
    exact ih _ (by omega) (fun x hx => hl x (by simp [hx])) (by omega)

theorem GoodM.nonneg {D : Set (ℕ →₀ ℕ)} {m : Mono R} (h : GoodM P D m) : ∀ e ∈ m.exps, 0 ≤ e :=
  fun e he => (h.canon.pos e he).le

theorem Mono.Canon.exps_sum {m : Mono R} (hm : m.Canon) :
    m.exps.sum = ((m.degs.sum fun _ e => e : ℕ) : Int) := by
  unfold Finsupp.sum Finset.sum
  rw [hm.values, Multiset.sum_coe]
  have : ∀ l : List Int, (∀ e ∈ l, 0 < e) → l.sum = (((l.map Int.toNat).sum : ℕ) : Int) := by
    intro l hl
    induction l with
    | nil => simp
    | cons a l ih =>
      have := hl a (by simp)
      rw [List.sum_cons, List.map_cons, List.sum_cons, Nat.cast_add,
        ← ih (fun e he => hl e (by simp [he]))]
      omega
  exact this _ hm.pos

theorem GoodM.sum_le {m : Mono R} (h : GoodM P (degLE N) m) : m.exps.sum ≤ N := by
  rw [h.canon.exps_sum]
  rcases h.degs with h' | h'
  · rw [h.canon.degs_eq_zero.mpr h']; simp
  · exact_mod_cast h'

theorem Mono.degreeW_eq (hw : KeepsUpTo w N) {m : Mono R} (h : GoodM P (degLE N) m) :
    m.degreeW w = m.degree := by
  unfold Mono.degreeW Mono.degree
  rw [foldl_keeps hw m.exps 0 le_rfl h.nonneg (by simpa using h.sum_le)]

theorem Poly.degreeW_eq (hw : KeepsUpTo w N) {p : Poly R} (h : GoodL P (degLE N) p.monos) :
    p.degreeW w = p.degree := by
  unfold Poly.degreeW Poly.degree
  refine Go.bind_congr fun _ _ => ?_
  refine Go.foldlM_congr (fun _ => True) _ _ trivial ?_
  intro acc m hm _
  rw [Mono.degreeW_eq hw (h m hm)]
  refine ⟨rfl, ?_⟩
  obtain ⟨d, hd⟩ : ∃ d, m.degree = .ok d := by
    unfold Mono.degree; rw [(h m hm).canon.check]; exact ⟨_, rfl⟩
  rw [hd]
  exact Go.ok_pure trivial

theorem Poly.asSimplifiedW_eq (hw : KeepsUpTo w N) {p : Poly R} (hne : p.monos ≠ [])
    (h : GoodL P (degLE N) p.monos) : p.asSimplifiedW w = p.asSimplified := by
  obtain ⟨-, -, q, hq, -, hg, -⟩ := Poly.asSimplified_ok hne h
  unfold Poly.asSimplifiedW Poly.asSimplified
  rw [hq, Go.ok_bind, Go.ok_bind, Poly.degreeW_eq hw hg]
  rfl

theorem Scalar.asSimplifiedW_eq (hw : KeepsUpTo w N) {e : Scalar R} (h : Good P (degLE N) e) :
    e.asSimplifiedW w = e.asSimplified := by
  cases e with
  | k c => rfl
  | var v => rfl
  | mono m => rfl
  | poly p => exact Poly.asSimplifiedW_eq hw h.1 h.2

theorem Poly.plusKW_eq (hw : KeepsUpTo w N) {p : Poly R} (hp : Good P (degLE N) (.poly p)) (c : R) :
    p.plusKW w c = p.plusK c := by
  rw [Poly.plusK_eq (GoodL.check hp.1 hp.2)]
  obtain ⟨h1, h2⟩ := plusKList_good hp.2 hp.1 c
  rw [← Poly.asSimplifiedW_eq (p := ⟨plusKList p.monos c⟩) hw h1 h2]
  unfold Poly.plusKW
  rw [GoodL.check hp.1 hp.2, Go.ok_bind]
  rfl

theorem Poly.plusVarW_eq (hw : KeepsUpTo w N) {p : Poly R} (hp : Good P (degLE N) (.poly p)) {v : Var R}
    (hv : Good P (degLE N) (.var v)) : p.plusVarW w v = p.plusVar v := by
  rw [Poly.plusVar_eq hp.1 hp.2 hv.1]
  obtain ⟨h1, h2⟩ := plusVarList_good hp.2 hp.1 hv.1 hv.2.1 hv.2.2
  rw [← Poly.asSimplifiedW_eq (p := ⟨plusVarList p.monos v⟩) hw h1 h2]
  unfold Poly.plusVarW
  rw [GoodL.check hp.1 hp.2, hv.1.check, Go.ok_bind, Go.ok_bind, Poly.variableIndex_ok hp.1 hp.2 hv.1,
    Go.ok_bind]
  unfold plusVarList
  cases p.monos.findIdx? (fun m => decide (m.exps = [1] ∧ m.vars.map (·.id) = [v.id])) <;> rfl

theorem Poly.plusPolyW_eq (hw : KeepsUpTo w N) {p q : Poly R} (hp : Good P (degLE N) (.poly p))
    (hq : Good P (degLE N) (.poly q)) : p.plusPolyW w q = p.plusPoly q := by
  unfold Poly.plusPolyW Poly.plusPoly
  have h1 : p.monos ++ q.monos ≠ [] := by simp [hp.1]
  have h2 := goodL_append hp.2 hq.2
  rw [GoodL.check hp.1 hp.2, GoodL.check hq.1 hq.2, Go.ok_bind, Go.ok_bind, Go.ok_bind, Go.ok_bind,
    Poly.asSimplifiedW_eq hw (p := ⟨p.monos ++ q.monos⟩) h1 h2]
  exact (Poly.asSimplified_good (p := ⟨p.monos ++ q.monos⟩) h1 h2).bind_congr
    (fun _ h => Scalar.asSimplifiedW_eq hw h)

theorem Poly.plusMonoW_eq (hw : KeepsUpTo w N) {p : Poly R} (hp : Good P (degLE N) (.poly p)) {m : Mono R}
    (hm : GoodM P (degLE N) m) : p.plusMonoW w m = p.plusMono m := by
  unfold Poly.plusMonoW Poly.plusMono
  rw [Poly.plusPolyW_eq hw hp (Mono.toPoly_good hm)]
  refine Go.bind_congr fun _ _ => Go.bind_congr fun _ _ => ?_
  exact (Poly.plusPoly_good hp (Mono.toPoly_good hm)).bind_congr (fun _ h => Scalar.asSimplifiedW_eq hw h)

theorem Mono.plusW_eq (hw : KeepsUpTo w N) {m : Mono R} (hm : GoodM P (degLE N) m) {e : Scalar R}
    (he : Good P (degLE N) e) : m.plusW w e = m.plus e := by
  unfold Mono.plusW Mono.plus
  rw [hm.canon.check, he.check, Go.ok_bind, Go.ok_bind, Go.ok_bind, Go.ok_bind]
  cases e with
  | k c =>
    simp only [Go.pure_eq, Go.ok_bind]
    split
    · exact Scalar.asSimplifiedW_eq (P := P) hw trivial
    · exact Scalar.asSimplifiedW_eq hw (good_pair hm (goodM_const c))
  | var v =>
    simp only [Go.pure_eq, Go.ok_bind]
    rw [Mono.isDegreeOne_ok hm.canon.len he.1, Go.ok_bind, Go.ok_bind]
    split
    · rfl
    · exact Scalar.asSimplifiedW_eq hw (good_pair hm (goodM_var he.1 he.2.1 he.2.2 _))
  | mono r =>
    simp only [Go.pure_eq, Go.ok_bind]
    rw [Mono.matches_ok hm.canon.len he.canon.len, Go.ok_bind, Go.ok_bind]
    split
    · rfl
    · exact Scalar.asSimplifiedW_eq hw (good_pair hm he)
  | poly p =>
    simp only
    rw [Poly.plusMonoW_eq hw he hm]
    exact (Poly.plusMono_good he hm).bind_congr (fun _ h => Scalar.asSimplifiedW_eq hw h)

theorem Poly.plusW_eq (hw : KeepsUpTo w N) {p : Poly R} (hp : Good P (degLE N) (.poly p)) {e : Scalar R}
    (he : Good P (degLE N) e) : p.plusW w e = p.plus e := by
  cases e with
  | k c => exact Poly.plusKW_eq hw hp c
  | var v => exact Poly.plusVarW_eq hw hp he
  | mono m => exact Poly.plusMonoW_eq hw hp he
  | poly q => exact Poly.plusPolyW_eq hw hp he

theorem Var.plusW_eq (hw : KeepsUpTo w N) {v : Var R} (hv : Good P (degLE N) (.var v)) {e : Scalar R}
    (he : Good P (degLE N) e) : v.plusW w e = v.plus e := by
  have gv : GoodM P (degLE N) v.toMono := goodM_var hv.1 hv.2.1 hv.2.2 _
  unfold Var.plusW Var.plus
  rw [hv.1.check, Go.ok_bind, Go.ok_bind]
  cases e with
  | k c =>
    simp only [Go.pure_eq, Go.ok_bind]
    exact Scalar.asSimplifiedW_eq hw (good_pair gv (goodM_const c))
  | var x =>
    simp only [Go.pure_eq, Go.ok_bind]
    split
    · rfl
    · exact Scalar.asSimplifiedW_eq hw (good_pair gv (goodM_var he.1 he.2.1 he.2.2 _))
  | mono m =>
    simp only
    rw [Mono.plusW_eq hw he hv]
    exact (Mono.plus_good he hv).bind_congr (fun _ h => Scalar.asSimplifiedW_eq hw h)
  | poly p =>
    simp only
    rw [Poly.plusVarW_eq hw he hv]
    exact (Poly.plusVar_good he hv).bind_congr (fun _ h => Scalar.asSimplifiedW_eq hw h)

theorem kPlusW_eq (hw : KeepsUpTo w N) (c : R) {e : Scalar R} (he : Good P (degLE N) e) :
    kPlusW w c e = kPlus c e := by
  unfold kPlusW kPlus
  refine Go.bind_congr fun _ _ => ?_
  cases e with
  | k d => rfl
  | var v => exact Var.plusW_eq hw he (e := .k c) trivial
  | mono m => exact Mono.plusW_eq hw he (e := .k c) trivial
  | poly p => exact Poly.plusKW_eq hw he c

theorem Scalar.plusW_eq (hw : KeepsUpTo w N) {a b : Scalar R} (ha : Good P (degLE N) a)
    (hb : Good P (degLE N) b) : a.plusW w b = a.plus b := by
  cases a with
  | k c => exact kPlusW_eq hw c hb
  | var v => exact Var.plusW_eq hw ha hb
  | mono m => exact Mono.plusW_eq hw ha hb
  | poly p => exact Poly.plusW_eq hw ha hb

/-! ## Multiply -/

theorem le_sum_of_mem' {l : List Int} (hl : ∀ x ∈ l, 0 ≤ x) {x : Int} (hx : x ∈ l) : x ≤ l.sum :=
  List.single_le_sum hl x hx

theorem modify_keeps (hw : KeepsUpTo w N) {l : List Int} (hl : ∀ x ∈ l, 0 ≤ x) {d : Int} (hd : 0 ≤ d)
    (hs : l.sum + d ≤ N) (i : ℕ) :
    l.modify i (fun e => w (e + d)) = l.modify i (· + d) := by
  apply List.ext_getElem?
  intro j
  rw [List.getElem?_modify, List.getElem?_modify]
  cases hj : l[j]? with
  | none => rfl
  | some x =>
    have hx := List.mem_of_getElem? hj
    have h1 := hl x hx
    have h2 := le_sum_of_mem' hl hx
    simp only [Option.map_eq_map, Option.map_some]
    rw [hw (x + d) (by omega) (by omega)]

theorem modify_bound {l : List Int} (hl : ∀ x ∈ l, 0 ≤ x) {d : Int} (hd : 0 ≤ d) (i : ℕ) :
    (∀ x ∈ l.modify i (· + d), 0 ≤ x) ∧ (l.modify i (· + d)).sum ≤ l.sum + d := by
  induction l generalizing i with
  | nil => cases i <;> simp [hd]
  | cons a l ih =>
    have ha := hl a (by simp)
    have hl' := fun x hx => hl x (List.mem_cons_of_mem a hx)
    cases i with
    | zero =>
      simp only [List.modify_zero_cons, List.mem_cons, forall_eq_or_imp, List.sum_cons]
      exact ⟨⟨by omega, hl'⟩, by omega⟩
    | succ i =>
      obtain ⟨h1, h2⟩ := ih hl' i
      simp only [List.modify_succ_cons, List.mem_cons, forall_eq_or_imp, List.sum_cons]
      exact ⟨⟨ha, h1⟩, by omega⟩

theorem addExponentsW_eq (hw : KeepsUpTo w N) (vs : List (Var R)) (l : List (Var R × Int)) (md : List Int)
    (hmd : ∀ x ∈ md, 0 ≤ x) (hl : ∀ e ∈ l.map (·.2), 0 ≤ e) (hs : md.sum + (l.map (·.2)).sum ≤ N) :
    l.foldlM (addExponentW w vs) md = l.foldlM (addExponent vs) md ∧
    ∀ md', l.foldlM (addExponent vs) md = .ok md' → (∀ x ∈ md', 0 ≤ x) ∧
      md'.sum ≤ md.sum + (l.map (·.2)).sum := by
  induction l generalizing md with
  | nil =>
    refine ⟨rfl, ?_⟩
    rintro md' h
    cases h
    exact ⟨hmd, by simp⟩
  | cons ve l ih =>
    have he : 0 ≤ ve.2 := hl ve.2 (by simp)
    have hl' : ∀ e ∈ l.map (·.2), 0 ≤ e := fun e h => hl e (by simp only [List.map_cons, List.mem_cons]; exact .inr h)
    have h0 : 0 ≤ (l.map (·.2)).sum := List.sum_nonneg hl'
    simp only [List.map_cons, List.sum_cons] at hs ⊢
    rw [List.foldlM_cons, List.foldlM_cons]
    unfold addExponentW addExponent
    cases hi : findVar ve.1 vs with
    | none =>
      refine ⟨rfl, ?_⟩
      rintro md' h
      cases h
    | some i =>
      simp only [Go.pure_eq, Go.ok_bind]
      rw [modify_keeps hw hmd he (by omega)]
      obtain ⟨b1, b2⟩ := modify_bound hmd he i
      obtain ⟨r1, r2⟩ := ih (md.modify i (· + ve.2)) b1 hl' (by omega)
      refine ⟨r1, fun md' h => ?_⟩
      obtain ⟨c1, c2⟩ := r2 md' h
      exact ⟨c1, by omega⟩

theorem map_snd_zip' {m : Mono R} (h : m.Canon) : (m.vars.zip m.exps).map (·.2) = m.exps :=
  List.map_snd_zip (by rw [h.len])

theorem Mono.mulMonoW_eq {A B : ℕ} (hw : KeepsUpTo w N) (hN : A + B ≤ N) {m r : Mono R}
    (hm : GoodM P (degLE A) m) (hr : GoodM P (degLE B) r) : m.mulMonoW w r = m.mulMono r := by
  unfold Mono.mulMonoW Mono.mulMono
  have ha := hm.sum_le
  have hb := hr.sum_le
  have h0 : 0 ≤ r.exps.sum := List.sum_nonneg hr.nonneg
  obtain ⟨h1, h2⟩ := addExponentsW_eq hw (uniqueVars (m.vars ++ r.vars)) (m.vars.zip m.exps)
    (List.replicate (uniqueVars (m.vars ++ r.vars)).length 0)
    (by intro x hx; rw [List.eq_of_mem_replicate hx])
    (by rw [map_snd_zip' hm.canon]; exact hm.nonneg)
    (by rw [map_snd_zip' hm.canon]; simp; omega)
  simp only [h1]
  refine Go.bind_congr fun md1 hmd1 => ?_
  obtain ⟨b1, b2⟩ := h2 md1 hmd1
  rw [map_snd_zip' hm.canon] at b2
  simp only [List.sum_replicate, smul_zero, zero_add] at b2
  rw [(addExponentsW_eq hw (uniqueVars (m.vars ++ r.vars)) (r.vars.zip r.exps) md1 b1
    (by rw [map_snd_zip' hr.canon]; exact hr.nonneg)
    (by rw [map_snd_zip' hr.canon]; omega)).1]

theorem Mono.mulVarW_eq {A : ℕ} (hw : KeepsUpTo w N) (hN : A + 1 ≤ N) {m : Mono R}
    (hm : GoodM P (degLE A) m) (v : Var R) : m.mulVarW w v = m.mulVar v := by
  unfold Mono.mulVarW Mono.mulVar
  have ha := hm.sum_le
  cases findVar v m.vars with
  | none => rfl
  | some i => simp only [modify_keeps hw hm.nonneg (d := 1) (by omega) (by omega) i]

variable {A B : ℕ}

theorem Good.up {e : Scalar R} (h : Good P (degLE A) e) (hAB : A ≤ B) : Good P (degLE B) e :=
  h.weaken (fun _ h => h) (degLE_mono hAB)

theorem GoodM.up {m : Mono R} (h : GoodM P (degLE A) m) (hAB : A ≤ B) : GoodM P (degLE B) m :=
  h.weaken (fun _ h => h) (degLE_mono hAB)

theorem Good.var_pos {v : Var R} (h : Good P (degLE A) (.var v)) : 1 ≤ A := by
  have : (Finsupp.sum (Finsupp.single v.id 1) fun _ e => e) ≤ A := h.2.2
  rw [Finsupp.sum_single_index rfl] at this
  exact this

theorem Poly.mulKW_eq (hw : KeepsUpTo w N) {p : Poly R} (hp : Good P (degLE N) (.poly p)) (c : R) :
    p.mulKW w c = p.mulK c := by
  unfold Poly.mulKW Poly.mulK
  refine Go.bind_congr fun _ _ => Poly.asSimplifiedW_eq (P := P) hw (by simpa using hp.1) ?_
  intro m hm
  obtain ⟨x, hx, rfl⟩ := List.mem_map.mp hm
  exact Mono.mulK_good (hp.2 x hx) c

theorem Poly.mulVarW_eq (hw : KeepsUpTo w N) (hN : A + B ≤ N) {p : Poly R} (hp : Good P (degLE A) (.poly p))
    {v : Var R} (hv : Good P (degLE B) (.var v)) : p.mulVarW w v = p.mulVar v := by
  have hB := hv.var_pos
  unfold Poly.mulVarW Poly.mulVar
  have : p.monos.map (·.mulVarW w v) = p.monos.map (·.mulVar v) :=
    List.map_congr_left (fun m hm => Mono.mulVarW_eq hw (by omega) (hp.2 m hm) v)
  rw [this]
  refine Go.bind_congr fun _ _ => Go.bind_congr fun _ _ =>
    Poly.asSimplifiedW_eq (P := P) hw (by simpa using hp.1) ?_
  intro m hm
  obtain ⟨x, hx, rfl⟩ := List.mem_map.mp hm
  exact (Mono.mulVar_good (prodIn_degLE A B) (hp.2 x hx) hv).up hN

theorem Poly.mulMonoW_eq (hw : KeepsUpTo w N) (hN : A + B ≤ N) {p : Poly R} (hp : Good P (degLE A) (.poly p))
    {r : Mono R} (hr : GoodM P (degLE B) r) : p.mulMonoW w r = p.mulMono r := by
  unfold Poly.mulMonoW Poly.mulMono
  rw [Go.mapM_congr p.monos (fun m hm => Mono.mulMonoW_eq hw hN (hp.2 m hm) hr)]
  refine Go.bind_congr fun _ _ => Go.bind_congr fun _ _ => ?_
  refine (Go.mapM_ok _ _ p.monos
    (fun m hm => Mono.mulMono_good (prodIn_degLE A B) (hp.2 m hm) hr)).bind_congr ?_
  intro ms hms
  exact Poly.asSimplifiedW_eq hw (forall₂_ne hms hp.1)
    (forall₂_good hms (fun _ _ h => h.1.up hN))

theorem Poly.mulPolyW_eq (hw : KeepsUpTo w N) (hN : A + B ≤ N) {p q : Poly R}
    (hp : Good P (degLE A) (.poly p)) (hq : Good P (degLE B) (.poly q)) :
    p.mulPolyW w q = p.mulPoly q := by
  unfold Poly.mulPolyW Poly.mulPoly
  refine Go.bind_congr fun _ _ => Go.bind_congr fun _ _ => ?_
  have hstep : ∀ acc : Scalar R, ∀ r ∈ q.monos, Good P (degLE N) acc →
      Go.Ok (do let prod ← p.mulMono r; acc.plus prod) (Good P (degLE N)) := by
    intro acc r hr hacc
    exact (Poly.mulMono_good (prodIn_degLE A B) hp (hq.2 r hr)).bind
      (fun s hs => Scalar.plus_good hacc (hs.up hN))
  rw [Go.foldlM_congr (Good P (degLE N)) q.monos (Scalar.k GoNum.zero) trivial
    (g := fun acc r => do let prod ← p.mulMono r; acc.plus prod) ?_]
  · exact (Go.foldlM_ok _ (Good P (degLE N)) _ (Scalar.k GoNum.zero) trivial hstep).bind_congr
      (fun _ h => Scalar.asSimplifiedW_eq hw h)
  · intro acc r hr hacc
    refine ⟨?_, hstep acc r hr hacc⟩
    rw [Poly.mulMonoW_eq hw hN hp (hq.2 r hr)]
    exact (Poly.mulMono_good (prodIn_degLE A B) hp (hq.2 r hr)).bind_congr
      (fun s hs => Scalar.plusW_eq hw hacc (hs.up hN))

theorem Mono.mulW_eq (hw : KeepsUpTo w N) (hN : A + B ≤ N) {m : Mono R} (hm : GoodM P (degLE A) m)
    {e : Scalar R} (he : Good P (degLE B) e) : m.mulW w e = m.mul e := by
  unfold Mono.mulW Mono.mul
  refine Go.bind_congr fun _ _ => Go.bind_congr fun _ _ => ?_
  cases e with
  | k c => rfl
  | var v =>
    have hB := he.var_pos
    simp only [Mono.mulVarW_eq hw (by omega : A + 1 ≤ N) hm v]
  | mono r => simp only [Mono.mulMonoW_eq hw hN hm he]
  | poly p => exact Poly.mulMonoW_eq hw (by omega) he hm

theorem Poly.mulW_eq (hw : KeepsUpTo w N) (hN : A + B ≤ N) {p : Poly R} (hp : Good P (degLE A) (.poly p))
    {e : Scalar R} (he : Good P (degLE B) e) : p.mulW w e = p.mul e := by
  cases e with
  | k c => exact Poly.mulKW_eq hw (hp.up (by omega)) c
  | var v => exact Poly.mulVarW_eq hw hN hp he
  | mono m => exact Poly.mulMonoW_eq hw hN hp he
  | poly q => exact Poly.mulPolyW_eq hw hN hp he

theorem Var.mulW_eq (hw : KeepsUpTo w N) (hN : A + B ≤ N) {v : Var R} (hv : Good P (degLE A) (.var v))
    {e : Scalar R} (he : Good P (degLE B) e) : v.mulW w e = v.mul e := by
  unfold Var.mulW Var.mul
  refine Go.bind_congr fun _ _ => Go.bind_congr fun _ _ => ?_
  cases e with
  | k c => rfl
  | var x =>
    simp only [Go.pure_eq, Go.ok_bind]
    split <;> rfl
  | mono m =>
    simp only
    rw [Mono.mulW_eq hw (by omega : B + A ≤ N) he hv]
    exact (Mono.mul_good (prodIn_degLE A B).symm he hv).bind_congr
      (fun _ h => Scalar.asSimplifiedW_eq hw (h.up hN))
  | poly p =>
    simp only
    rw [Poly.mulVarW_eq hw (by omega : B + A ≤ N) he hv]
    exact (Poly.mulVar_good (prodIn_degLE A B).symm he hv).bind_congr
      (fun _ h => Scalar.asSimplifiedW_eq hw (h.up hN))

theorem kMulW_eq (hw : KeepsUpTo w N) (c : R) {e : Scalar R} (he : Good P (degLE N) e) :
    kMulW w c e = kMul c e := by
  unfold kMulW kMul
  refine Go.bind_congr fun _ _ => ?_
  cases e with
  | k d => rfl
  | var v => exact Var.mulW_eq hw (B := 0) (by omega) he (e := .k c) trivial
  | mono m => exact Mono.mulW_eq hw (B := 0) (by omega) he (e := .k c) trivial
  | poly p => exact Poly.mulKW_eq hw he c

theorem Scalar.mulW_eq (hw : KeepsUpTo w N) (hN : A + B ≤ N) {a b : Scalar R} (ha : Good P (degLE A) a)
    (hb : Good P (degLE B) b) : a.mulW w b = a.mul b := by
  cases a with
  | k c => exact kMulW_eq hw c (hb.up (by omega))
  | var v => exact Var.mulW_eq hw hN ha hb
  | mono m => exact Mono.mulW_eq hw hN ha hb
  | poly p => exact Poly.mulW_eq hw hN ha hb

theorem Scalar.mulF64W_eq (hw : KeepsUpTo w N) {a : Scalar R} (ha : Good P (degLE N) a) (c : R) :
    a.mulF64W w c = a.mulF64 c := by
  cases a with
  | k d => rfl
  | mono m => exact Mono.mulW_eq hw (B := 0) (by omega) ha (e := .k c) trivial
  | var v =>
    show (do let out ← (Scalar.var v).mulW w (.k c); out.asSimplifiedW w) =
      (do let out ← (Scalar.var v).mul (.k c); out.asSimplified)
    rw [Scalar.mulW_eq hw (B := 0) (by omega) ha (b := .k c) trivial]
    exact (Scalar.mul_good (prodIn_const _) ha (b := .k c) trivial).bind_congr
      (fun _ h => Scalar.asSimplifiedW_eq hw h)
  | poly p =>
    show (do let out ← (Scalar.poly p).mulW w (.k c); out.asSimplifiedW w) =
      (do let out ← (Scalar.poly p).mul (.k c); out.asSimplified)
    rw [Scalar.mulW_eq hw (B := 0) (by omega) ha (b := .k c) trivial]
    exact (Scalar.mul_good (prodIn_const _) ha (b := .k c) trivial).bind_congr
      (fun _ h => Scalar.asSimplifiedW_eq hw h)

theorem Scalar.minusW_eq (hw : KeepsUpTo w N) {a b : Scalar R} (ha : Good P (degLE N) a)
    (hb : Good P (degLE N) b) : a.minusW w b = a.minus b := by
  unfold Scalar.minusW Scalar.minus
  rw [Scalar.mulF64W_eq hw hb]
  refine Go.bind_congr fun _ _ => Go.bind_congr fun _ _ => ?_
  exact (Scalar.mulF64_good hb negOne).bind_congr (fun _ h => Scalar.plusW_eq hw ha h)

theorem powLoopW_eq (hw : KeepsUpTo w N) {base : Scalar R} (hb : Good P (degLE A) base) (n k : ℕ)
    (hN : (n + k) * A ≤ N) {acc : Scalar R} (ha : Good P (degLE (k * A)) acc) :
    powLoopW w base n acc = powLoop base n acc := by
  induction n generalizing k acc with
  | zero => rfl
  | succ n ih =>
    unfold powLoopW powLoop
    have e : n + 1 + k = n + (k + 1) := by omega
    have h1 : k * A + A ≤ N := by
      refine le_trans ?_ hN
      rw [← Nat.succ_mul]
      exact Nat.mul_le_mul_right A (by omega)
    rw [Scalar.mulW_eq hw h1 ha hb]
    refine (Scalar.mul_good (prodIn_degLE _ _) ha hb).bind_congr fun s hs => ?_
    exact ih (k + 1) (by rw [← e]; exact hN) (by rw [Nat.succ_mul]; exact hs)

theorem Scalar.powerW_eq (hw : KeepsUpTo w N) {base : Scalar R} (hb : Good P (degLE A) base) (n : Int)
    (hN : n.toNat * A ≤ N) : base.powerW w n = base.power n := by
  unfold Scalar.powerW Scalar.power
  refine Go.bind_congr fun _ _ => ?_
  split
  · rfl
  · simp only [powLoopW_eq hw hb n.toNat 0 (by simpa using hN) (acc := .k GoNum.one) trivial]

theorem Scalar.degreeW_eq (hw : KeepsUpTo w N) {e : Scalar R} (h : Good P (degLE N) e) :
    e.degreeW w = e.degree := by
  cases e with
  | k c => rfl
  | var v => rfl
  | mono m => exact Mono.degreeW_eq hw h
  | poly p => exact Poly.degreeW_eq hw h.2

theorem Scalar.isLinearW_eq (hw : KeepsUpTo w N) {e : Scalar R} (h : Good P (degLE N) e) :
    e.isLinearW w = e.isLinear := by
  unfold Scalar.isLinearW Scalar.isLinear
  rw [Scalar.degreeW_eq hw h]

theorem Scalar.isQuadraticW_eq (hw : KeepsUpTo w N) {e : Scalar R} (h : Good P (degLE N) e) :
    e.isQuadraticW w = e.isQuadratic := by
  unfold Scalar.isQuadraticW Scalar.isQuadratic
  rw [Scalar.degreeW_eq hw h]

theorem Scalar.linearCoeffW_eq (hw : KeepsUpTo w N) {e : Scalar R} (h : Good P (degLE N) e)
    (wrt : List (List (Var R))) : e.linearCoeffW w wrt = e.linearCoeff wrt := by
  cases e with
  | k c => rfl
  | var v => rfl
  | mono m =>
    show m.linearCoeffW w wrt = m.linearCoeff wrt
    unfold Mono.linearCoeffW Mono.linearCoeff
    rw [Mono.degreeW_eq hw h]
    rfl
  | poly p => rfl

/-! ## DerivativeWrt -/

theorem Mono.derivativeW_eq (hw : KeepsUpTo w N) {m : Mono R} (h : GoodM P (degLE N) m) (v : Var R) :
    m.derivativeW w v = m.derivative v := by
  unfold Mono.derivativeW Mono.derivative
  have hs := h.sum_le
  have : ∀ i : ℕ, m.exps.modify i (fun e => w (e - 1)) = m.exps.modify i (· - 1) := by
    intro i
    apply List.ext_getElem?
    intro j
    rw [List.getElem?_modify, List.getElem?_modify]
    cases hj : m.exps[j]? with
    | none => rfl
    | some x =>
      have hx := List.mem_of_getElem? hj
      have h1 := h.canon.pos x hx
      have h2 := le_sum_of_mem' h.nonneg hx
      simp only [Option.map_eq_map, Option.map_some]
      rw [hw (x - 1) (by omega) (by omega)]
  simp only [this]
  rfl

theorem Poly.derivativeW_eq (hw : KeepsUpTo w N) {p : Poly R} (h : GoodL P (degLE N) p.monos) (v : Var R) :
    p.derivativeW w v = p.derivative v := by
  unfold Poly.derivativeW Poly.derivative
  have key : ∀ (l : List (Mono R)) (acc : List (Mono R)), GoodL P (degLE N) l →
      l.foldlM (derivStepW w v) acc = l.foldlM (derivStep v) acc := by
    intro l
    induction l with
    | nil => intros; rfl
    | cons m l ih =>
      intro acc hl
      rw [List.foldlM_cons, List.foldlM_cons]
      have : derivStepW w v acc m = derivStep v acc m := by
        unfold derivStepW derivStep
        rw [Mono.derivativeW_eq hw (hl m (by simp))]
        rfl
      rw [this]
      exact Go.bind_congr fun a _ => ih a (fun x hx => hl x (by simp [hx]))
  rw [key p.monos [] h]

theorem Scalar.derivativeW_eq (hw : KeepsUpTo w N) {e : Scalar R} (h : Good P (degLE N) e) (v : Var R) :
    e.derivativeW w v = e.derivative v := by
  cases e with
  | k c => rfl
  | var v => rfl
  | mono m => exact Mono.derivativeW_eq hw h v
  | poly p => exact Poly.derivativeW_eq hw h.2 v

theorem degLE_pred {d d' : ℕ →₀ ℕ} {i : ℕ} (h : d + Finsupp.single i 1 = d') (hd : d' ∈ degLE A) : d ∈ degLE A := by
  have h1 : (d'.sum fun _ e => e) ≤ A := hd
  rw [← h, degree_add] at h1
  exact le_trans (Nat.le_add_right _ _) h1

theorem Mono.derivative_good {m : Mono R} (h : GoodM P (degLE A) m) {v : Var R} (hv : v.OK) :
    Go.Ok (m.derivative v) (fun r => (∃ c, r = .k c) ∨ ∃ d, r = .mono d ∧ GoodM P (degLE A) d) := by
  have key : ∀ d : Mono R, d.Canon → (∀ x ∈ d.vars, x ∈ m.vars) → d.degs + Finsupp.single v.id 1 = m.degs →
      GoodM P (degLE A) d := by
    intro d hd hdv hdeg
    refine ⟨hd, fun x hx => h.vars x (hdv x hx), .inr ?_⟩
    rcases h.degs with h' | h'
    · rw [h.canon.degs_eq_zero.mpr h'] at hdeg
      have := DFunLike.congr_fun hdeg v.id
      simp at this
    · exact degLE_pred hdeg h'
  refine (Mono.derivative_ok h.canon hv).mono ?_
  intro r hr
  cases hr with
  | absent _ => exact .inl ⟨_, rfl⟩
  | linear _ _ _ _ => exact .inl ⟨_, rfl⟩
  | erase d hd hdv hdc hdeg h1 => exact .inr ⟨d, rfl, key d hd hdv hdeg⟩
  | dec d e hd hdv hdc hdeg he h2 => exact .inr ⟨d, rfl, key d hd hdv hdeg⟩

/-- `DerivativeWrt` does not raise the degree. -/
theorem Scalar.derivative_good {e : Scalar R} (h : Good P (degLE A) e) {v : Var R} (hv : v.OK) :
    Go.Ok (e.derivative v) (Good P (degLE A)) := by
  cases e with
  | k c => exact Go.ok_pure (a := Scalar.k GoNum.zero) trivial
  | var x =>
    simp only [Scalar.derivative, h.1.check, hv.check, Go.ok_bind]
    split
    · exact Go.ok_pure (a := Scalar.k GoNum.one) trivial
    · exact Go.ok_pure (a := Scalar.k GoNum.zero) trivial
  | mono m =>
    refine (Mono.derivative_good h hv).mono ?_
    rintro r (⟨c, rfl⟩ | ⟨d, rfl, hd⟩)
    · trivial
    · exact hd
  | poly p =>
    show Go.Ok (p.derivative v) _
    unfold Poly.derivative
    rw [GoodL.check h.1 h.2, hv.check, Go.ok_bind, Go.ok_bind]
    have hf : Go.Ok (p.monos.foldlM (derivStep v) []) (GoodL P (degLE A)) := by
      apply Go.foldlM_ok
      · simp [GoodL]
      · intro acc m hm hacc
        unfold derivStep
        split
        · exact Go.ok_pure hacc
        · refine (Mono.derivative_good (h.2 m hm) hv).bind ?_
          rintro r (⟨c, rfl⟩ | ⟨d, rfl, hd⟩)
          · simp only
            split
            · exact Go.ok_pure hacc
            · refine Go.ok_pure (goodL_append hacc ?_)
              intro x hx
              rw [List.mem_singleton.mp hx]
              exact goodM_const c
          · refine Go.ok_pure (goodL_append hacc ?_)
            intro x hx
            rw [List.mem_singleton.mp hx]
            exact hd
    refine hf.bind ?_
    intro ms hms
    by_cases he : ms.isEmpty = true
    · rw [if_pos he]
      exact Go.ok_pure (a := Scalar.k GoNum.zero) trivial
    · rw [if_neg he]
      exact Go.ok_pure (a := Scalar.poly ⟨ms⟩) ⟨by simpa using he, hms⟩

/-! ## Substitute -/

/-- The degree after substitution of expressions of degree at most `S`. -/
theorem subFoldW_eq {S : ℕ} (hw : KeepsUpTo w N) {f : Var R → Go (Scalar R)} {m : Mono R}
    (hm : GoodM P (degLE A) m) (hf : ∀ v ∈ m.vars, Go.Ok (f v) (Good P (degLE S))) (hN : A * S ≤ N) (c : R) :
    (m.vars.zip m.exps).foldlM (fun prod ve => do
      let sub ← f ve.1
      let pw ← sub.powerW w ve.2
      prod.mulW w pw) (.k c) = (m.vars.zip m.exps).foldlM (subStep f) (.k c) ∧
    Go.Ok ((m.vars.zip m.exps).foldlM (subStep f) (.k c)) (Good P (degLE (A * S))) := by
  have key : ∀ (l : List (Var R × Int)) (a : ℕ) (acc : Scalar R), (∀ ve ∈ l, ve.1 ∈ m.vars ∧ 0 ≤ ve.2) →
      Good P (degLE (a * S)) acc → (a : ℤ) + (l.map (·.2)).sum ≤ A →
      l.foldlM (fun prod ve => do
        let sub ← f ve.1
        let pw ← sub.powerW w ve.2
        prod.mulW w pw) acc = l.foldlM (subStep f) acc ∧
      Go.Ok (l.foldlM (subStep f) acc) (Good P (degLE (A * S))) := by
    intro l
    induction l with
    | nil =>
      intro a acc _ hacc hs
      refine ⟨rfl, Go.ok_pure (hacc.up (Nat.mul_le_mul_right S ?_))⟩
      simp only [List.map_nil, List.sum_nil] at hs
      omega
    | cons ve l ih =>
      intro a acc hl hacc hs
      obtain ⟨hv, he⟩ := hl ve (by simp)
      have hl' := fun x hx => hl x (List.mem_cons_of_mem ve hx)
      have h0 : 0 ≤ (l.map (·.2)).sum := by
        apply List.sum_nonneg
        intro x hx
        obtain ⟨y, hy, rfl⟩ := List.mem_map.mp hx
        exact (hl' y hy).2
      simp only [List.map_cons, List.sum_cons] at hs
      have hle : a + ve.2.toNat ≤ A := by omega
      have hle' : a * S + ve.2.toNat * S ≤ A * S := by
        rw [← Nat.add_mul]; exact Nat.mul_le_mul_right S hle
      rw [List.foldlM_cons, List.foldlM_cons]
      obtain ⟨s, hs1, hs2⟩ := hf ve.1 hv
      obtain ⟨pw, hp1, hp2⟩ := Scalar.power_good hs2 he
      have hp3 : Good P (degLE (ve.2.toNat * S)) pw := hp2.weaken (fun _ h => h) (nsum_degLE S _)
      obtain ⟨r, hr1, hr2⟩ := Scalar.mul_good (prodIn_degLE _ _) hacc hp3
      have e1 : subStep f acc ve = .ok r := by
        unfold subStep
        rw [hs1, Go.ok_bind, hp1, Go.ok_bind, hr1]
      have e2 : (do
          let sub ← f ve.1
          let pw ← sub.powerW w ve.2
          acc.mulW w pw) = Except.ok r := by
        rw [hs1, Go.ok_bind, Scalar.powerW_eq hw hs2 ve.2 (by omega), hp1, Go.ok_bind,
          Scalar.mulW_eq hw (by omega) hacc hp3, hr1]
      rw [e1, Go.ok_bind]
      simp only [e2, Go.ok_bind]
      exact ih (a + ve.2.toNat) r hl' (by rw [Nat.add_mul]; exact hr2) (by omega)
  refine key _ 0 (.k c) ?_ trivial ?_
  · rintro ⟨v, e⟩ hve
    exact ⟨(List.of_mem_zip hve).1, hm.nonneg e (List.of_mem_zip hve).2⟩
  · rw [map_snd_zip' hm.canon]
    have := hm.sum_le
    omega

theorem goodVar_up {v : Var R} (hv : v.OK) (hP : P v) (hA : 1 ≤ A) : Good P (degLE A) (.var v) := by
  refine ⟨hv, hP, ?_⟩
  show (Finsupp.sum (Finsupp.single v.id 1) fun _ e => e) ≤ A
  rw [Finsupp.sum_single_index rfl]
  exact hA

theorem Var.substitute_up {S : ℕ} {v vIn : Var R} {s : Scalar R} (hv : v.OK) (hP : P v)
    (hin : vIn.OK) (hs : Good P (degLE S) s) : Go.Ok (v.substitute vIn s) (Good P (degLE (max 1 S))) := by
  unfold Var.substitute
  rw [hv.check, hin.check, hs.check, Go.ok_bind, Go.ok_bind, Go.ok_bind]
  split
  · exact Go.ok_pure (hs.up (le_max_right 1 S))
  · exact Go.ok_pure (a := Scalar.var v) (goodVar_up hv hP (le_max_left 1 S))

/-- Substitution into a term: the degree is multiplied. -/
theorem Mono.substituteW_eq {S : ℕ} (hw : KeepsUpTo w N) {m : Mono R} (hm : GoodM P (degLE A) m)
    {vIn : Var R} (hin : vIn.OK) {s : Scalar R} (hs : Good P (degLE S) s) (hN : A * max 1 S ≤ N) :
    m.substituteW w vIn s = m.substitute vIn s ∧
    Go.Ok (m.substitute vIn s) (Good P (degLE (A * max 1 S))) := by
  unfold Mono.substituteW Mono.substitute
  rw [hm.canon.check, hin.check, hs.check]
  simp only [Go.ok_bind]
  cases findVar vIn m.vars with
  | none =>
    refine ⟨rfl, Go.ok_pure (P := Good P (degLE (A * max 1 S))) (a := .mono m) (hm.up ?_)⟩
    exact Nat.le_mul_of_pos_right A (by omega)
  | some i =>
    exact subFoldW_eq hw hm (f := fun v => v.substitute vIn s)
      (fun v hv => Var.substitute_up (hm.canon.ok v hv) (hm.vars v hv) hin hs) hN m.coeff

theorem Poly.substituteW_eq {S : ℕ} (hw : KeepsUpTo w N) {p : Poly R} (hp : Good P (degLE A) (.poly p))
    {vIn : Var R} (hin : vIn.OK) {s : Scalar R} (hs : Good P (degLE S) s) (hN : A * max 1 S ≤ N) :
    p.substituteW w vIn s = p.substitute vIn s ∧
    Go.Ok (p.substitute vIn s) (Good P (degLE (A * max 1 S))) := by
  have hk := hw.mono hN
  have hg : ∀ m ∈ p.monos, m.substituteW w vIn s = m.substitute vIn s ∧
      Go.Ok (m.substitute vIn s) (Good P (degLE (A * max 1 S))) :=
    fun m hm => Mono.substituteW_eq hw (hp.2 m hm) hin hs hN
  have hsum := sumFold_good (g := fun m : Mono R => m.substitute vIn s) (fun m hm => (hg m hm).2)
  unfold Poly.substituteW Poly.substitute
  rw [GoodL.check hp.1 hp.2, hin.check, hs.check]
  simp only [Go.ok_bind]
  rw [Go.foldlM_congr (Good P (degLE (A * max 1 S))) p.monos (Scalar.k GoNum.zero) trivial
    (g := fun acc m => do let t ← m.substitute vIn s; acc.plus t) ?_]
  · exact ⟨hsum.bind_congr (fun _ h => Scalar.asSimplifiedW_eq hk h),
      hsum.bind (fun _ h => Scalar.asSimplified_good h)⟩
  · intro acc m hm hacc
    rw [(hg m hm).1]
    exact ⟨(hg m hm).2.bind_congr (fun t ht => Scalar.plusW_eq hk hacc ht),
      (hg m hm).2.bind (fun t ht => Scalar.plus_good hacc ht)⟩

theorem Scalar.substituteW_eq {S : ℕ} (hw : KeepsUpTo w N) {e : Scalar R} (he : Good P (degLE A) e)
    {vIn : Var R} (hin : vIn.OK) {s : Scalar R} (hs : Good P (degLE S) s) (hN : A * max 1 S ≤ N) :
    e.substituteW w vIn s = e.substitute vIn s ∧
    Go.Ok (e.substitute vIn s) (Good P (degLE (A * max 1 S))) := by
  cases e with
  | k c => exact ⟨rfl, Go.ok_pure (P := Good P (degLE (A * max 1 S))) (a := .k c) trivial⟩
  | var v =>
    refine ⟨rfl, (Var.substitute_up he.1 he.2.1 hin hs).mono (fun r hr => hr.up ?_)⟩
    exact Nat.le_mul_of_pos_left _ he.var_pos
  | mono m => exact Mono.substituteW_eq hw he hin hs hN
  | poly p => exact Poly.substituteW_eq hw he hin hs hN

/-! ## SubstituteAccordingTo -/

/-- A map whose values have degree at most `S`. -/
structure GoodMap (P : Var R → Prop) (S : ℕ) (sm : SubMap R) : Prop where
  keys : ∀ kv ∈ sm, kv.1.OK
  vals : ∀ kv ∈ sm, Good P (degLE S) kv.2

theorem GoodMap.check {S : ℕ} {sm : SubMap R} (h : GoodMap P S sm) : checkSubMap sm = .ok () := by
  unfold checkSubMap
  apply Go.forM_ok
  intro kv hkv
  rw [(h.keys kv hkv).check, (h.vals kv hkv).check]
  rfl

theorem Var.substMap_up {S : ℕ} {v : Var R} (hv : v.OK) (hP : P v) {sm : SubMap R} (h : GoodMap P S sm) :
    Go.Ok (v.substMap sm) (Good P (degLE (max 1 S))) := by
  unfold Var.substMap
  rw [hv.check, h.check, Go.ok_bind, Go.ok_bind]
  unfold SubMap.lookup
  cases hf : sm.find? (fun kv => v.keyEq kv.1) with
  | none =>
    exact Go.ok_pure (a := Scalar.var v) (goodVar_up hv hP (le_max_left 1 S))
  | some kv => exact Go.ok_pure ((h.vals kv (List.mem_of_find?_eq_some hf)).up (le_max_right 1 S))

theorem Mono.substMapW_eq {S : ℕ} (hw : KeepsUpTo w N) {m : Mono R} (hm : GoodM P (degLE A) m)
    {sm : SubMap R} (h : GoodMap P S sm) (hN : A * max 1 S ≤ N) :
    m.substMapW w sm = m.substMap sm ∧ Go.Ok (m.substMap sm) (Good P (degLE (A * max 1 S))) := by
  unfold Mono.substMapW Mono.substMap
  rw [hm.canon.check, h.check]
  simp only [Go.ok_bind]
  exact subFoldW_eq hw hm (f := fun v => v.substMap sm)
    (fun v hv => Var.substMap_up (hm.canon.ok v hv) (hm.vars v hv) h) hN m.coeff

theorem Poly.substMapW_eq {S : ℕ} (hw : KeepsUpTo w N) {p : Poly R} (hp : Good P (degLE A) (.poly p))
    {sm : SubMap R} (h : GoodMap P S sm) (hN : A * max 1 S ≤ N) :
    p.substMapW w sm = p.substMap sm ∧ Go.Ok (p.substMap sm) (Good P (degLE (A * max 1 S))) := by
  have hk := hw.mono hN
  have hg : ∀ m ∈ p.monos, m.substMapW w sm = m.substMap sm ∧
      Go.Ok (m.substMap sm) (Good P (degLE (A * max 1 S))) :=
    fun m hm => Mono.substMapW_eq hw (hp.2 m hm) h hN
  unfold Poly.substMapW Poly.substMap
  rw [GoodL.check hp.1 hp.2, h.check]
  simp only [Go.ok_bind]
  refine ⟨Go.foldlM_congr (Good P (degLE (A * max 1 S))) p.monos (Scalar.k GoNum.zero) trivial ?_,
    sumFold_good (g := fun m : Mono R => m.substMap sm) (fun m hm => (hg m hm).2)⟩
  intro acc m hm hacc
  rw [(hg m hm).1]
  exact ⟨(hg m hm).2.bind_congr (fun t ht => Scalar.plusW_eq hk hacc ht),
    (hg m hm).2.bind (fun t ht => Scalar.plus_good hacc ht)⟩

theorem Scalar.substMapW_eq {S : ℕ} (hw : KeepsUpTo w N) {e : Scalar R} (he : Good P (degLE A) e)
    {sm : SubMap R} (h : GoodMap P S sm) (hN : A * max 1 S ≤ N) :
    e.substMapW w sm = e.substMap sm ∧ Go.Ok (e.substMap sm) (Good P (degLE (A * max 1 S))) := by
  cases e with
  | k c => exact ⟨rfl, Go.ok_pure (P := Good P (degLE (A * max 1 S))) (a := .k c) trivial⟩
  | var v =>
    refine ⟨rfl, (Var.substMap_up he.1 he.2.1 h).mono (fun r hr => hr.up ?_)⟩
    exact Nat.le_mul_of_pos_left _ he.var_pos
  | mono m => exact Mono.substMapW_eq hw he h hN
  | poly p => exact Poly.substMapW_eq hw he h hN

end

end Verif
