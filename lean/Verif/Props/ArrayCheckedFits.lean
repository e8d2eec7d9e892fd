import Verif.Props.ArrayChecked
import Verif.Props.CheckedFits

/-!
# C76: the check accepts programs of degree at most two, and programs in one variable

For any numbers of rows and columns, and any number of variables in the first case.
-/

set_option linter.unusedSectionVars false

namespace Verif

open MvPolynomial

/-- Accepted, with proper terms whose exponent vectors are in `D`. -/
def Entry.In (a : Entry) (D : Set (ℕ →₀ ℕ)) : Prop := a.ok = true ∧ (Shape.full a.ws).In D

namespace Entry
variable {a b : Entry} {A B D : Set (ℕ →₀ ℕ)} {E F : ℕ → ℕ → Entry}

theorem In.mono (h : a.In A) (hs : A ⊆ D) : a.In D := ⟨h.1, h.2.mono hs⟩

theorem in_make {ws : List Writing} {ok : Bool} (hD : D ⊆ flat) (h : (Shape.full ws).In D) (hok : ok = true) :
    (make ws ok).In D := ⟨by unfold make; rw [hok, h.ok hD]; rfl, h⟩

theorem in_const : const.In D := ⟨rfl, fun w hw => by cases hw⟩

theorem in_var {i : ℕ} (h : Finsupp.single i 1 ∈ D) : (var i).In D := ⟨rfl, Shape.in_var h⟩

theorem In.add (hD : D ⊆ flat) (ha : a.In D) (hb : b.In D) : (a.add b).In D :=
  in_make hD (Shape.In.add (a := Shape.full a.ws) (b := Shape.full b.ws) ha.2 hb.2) (by rw [ha.1, hb.1]; rfl)

theorem In.mul (hD : D ⊆ flat) (ha : a.In A) (hb : b.In B) (hp : ProdIn A B D) : (a.mul b).In D :=
  in_make hD (Shape.In.mul (a := Shape.full a.ws) (b := Shape.full b.ws) ha.2 hb.2 hp) (by rw [ha.1, hb.1]; rfl)

theorem in_mul_const (hD : D ⊆ flat) (ha : a.In D) : (a.mul const).In D :=
  ha.mul hD (B := ∅) in_const ⟨fun _ h => h, fun _ h => h.elim, fun _ _ _ h => h.elim⟩

theorem in_dot (hD : D ⊆ flat) (hE : ∀ i j, (E i j).In A) (hF : ∀ i j, (F i j).In B) (hp : ProdIn A B D) (i j n : ℕ) :
    (dot E F i j n).In D := by
  induction n with
  | zero => exact in_const
  | succ n ih => exact ih.add hD ((hE i n).mul hD (hF n j) hp)

theorem in_pow {r : ℕ} (hE : ∀ i j, (E i j).In A) (n : ℕ) (hD : {d | NSum A n d} ⊆ flat) (i j : ℕ) :
    (pow r E n i j).In {d | NSum A n d} := by
  induction n generalizing i j with
  | zero => exact in_const
  | succ n ih =>
    exact in_dot hD (fun i j => ih (fun d hd => hD (Shape.nsum_succ hd)) i j) hE
      ⟨fun d hd => Shape.nsum_succ hd, fun d hd => .one hd, fun d hd d' hd' => .add hd hd'⟩ i j r

theorem In.deriv {i : ℕ} (hD : D ⊆ flat) (ha : a.In A) (h : ∀ d, d + Finsupp.single i 1 ∈ A → d ∈ D) :
    (a.deriv i).In D := by
  refine in_make hD (fun u hu => ?_) ha.1
  obtain ⟨w, hw, rfl⟩ := List.mem_map.mp (List.mem_dedup.mp hu)
  obtain ⟨hw, hi⟩ := List.mem_filter.mp hw
  obtain ⟨e1, e2⟩ := (ha.2 w hw).1.deriv (of_decide_eq_true hi)
  exact ⟨e1, h _ (e2 ▸ (ha.2 w hw).2)⟩

theorem In.subst {i : ℕ} {S : ℕ → Set (ℕ →₀ ℕ)} (hD : D ⊆ flat) (ha : a.In A) (hb : b.In B)
    (hi : B ⊆ S i) (hS : ∀ l, l ≠ i → Finsupp.single l 1 ∈ S l) (h : ∀ d ∈ A, SubstTerms S d ⊆ D) :
    (a.subst i b).In D := by
  have key := ha.2.substAll (T := fun l => if l = i then Shape.full b.ws else .var l) (S := S)
    (c := fun l => decide (i ∈ l)) (q := true) hD (by
      intro w _ _ l _
      split
      · next hl => exact hl ▸ hb.2.mono hi
      · next hl => exact Shape.in_var (hS l hl)) (by
      intro w _ hc l hl
      refine hS l ?_
      rintro rfl
      exact of_decide_eq_false hc hl) h
  exact in_make hD key.1 (by rw [ha.1, hb.1, key.2]; rfl)

end Entry

variable {R : Type}

/-- The degree one expects of the entries of the result. -/
def AProg.deg : {r c : ℕ} → AProg R r c → ℕ
  | _, _, .scalar p => p.deg
  | _, _, .kvec _ | _, _, .kmat _ => 0
  | _, _, .vvec _ | _, _, .vmat _ => 1
  | _, _, .plus a b | _, _, .minus a b => max a.deg b.deg
  | _, _, .plusS a s | _, _, .minusS a s => max a.deg s.deg
  | _, _, .sPlus s a | _, _, .sMinus s a => max s.deg a.deg
  | _, _, .mul a b => a.deg + b.deg
  | _, _, .mulS a s => a.deg + s.deg
  | _, _, .sMul s a => s.deg + a.deg
  | _, _, .pow a n => n * a.deg
  | _, _, .transpose a | _, _, .simp a | _, _, .at a _ _ => a.deg
  | _, _, .hstack _ a | _, _, .vstack _ a => Finset.univ.sup fun k => (a k).deg
  | _, _, .deriv a _ => a.deg - 1
  | _, _, .subst a _ s => a.deg * max 1 s.deg

/-- Every intermediate result has expected degree at most two. -/
def AProg.Quadratic : {r c : ℕ} → AProg R r c → Prop
  | _, _, .scalar p => p.Quadratic
  | _, _, .kvec _ | _, _, .kmat _ | _, _, .vvec _ | _, _, .vmat _ => True
  | _, _, .plus a b | _, _, .minus a b => a.Quadratic ∧ b.Quadratic
  | _, _, .plusS a s | _, _, .minusS a s => a.Quadratic ∧ s.Quadratic
  | _, _, .sPlus s a | _, _, .sMinus s a => s.Quadratic ∧ a.Quadratic
  | _, _, .mul a b => a.Quadratic ∧ b.Quadratic ∧ a.deg + b.deg ≤ 2
  | _, _, .mulS a s => a.Quadratic ∧ s.Quadratic ∧ a.deg + s.deg ≤ 2
  | _, _, .sMul s a => s.Quadratic ∧ a.Quadratic ∧ s.deg + a.deg ≤ 2
  | _, _, .pow a n => a.Quadratic ∧ n * a.deg ≤ 2
  | _, _, .transpose a | _, _, .simp a | _, _, .at a _ _ => a.Quadratic
  | _, _, .hstack _ a | _, _, .vstack _ a => ∀ k, (a k).Quadratic
  | _, _, .deriv a _ => a.Quadratic
  | _, _, .subst a _ s => a.Quadratic ∧ s.Quadratic ∧ a.deg * max 1 s.deg ≤ 2

theorem AProg.Quadratic.deg_le {r c : ℕ} {p : AProg R r c} (h : p.Quadratic) : p.deg ≤ 2 := by
  induction p with
  | scalar p => exact Prog.Quadratic.deg_le h
  | kvec f => exact Nat.zero_le _
  | kmat f => exact Nat.zero_le _
  | vvec f => exact one_le_two
  | vmat f => exact one_le_two
  | plus a b iha ihb => exact max_le (iha h.1) (ihb h.2)
  | minus a b iha ihb => exact max_le (iha h.1) (ihb h.2)
  | plusS a s iha ihs => exact max_le (iha h.1) (ihs h.2)
  | minusS a s iha ihs => exact max_le (iha h.1) (ihs h.2)
  | sPlus s a ihs iha => exact max_le (ihs h.1) (iha h.2)
  | sMinus s a ihs iha => exact max_le (ihs h.1) (iha h.2)
  | mul a b iha ihb => exact h.2.2
  | mulS a s iha ihs => exact h.2.2
  | sMul s a ihs iha => exact h.2.2
  | pow a n iha => exact h.2
  | transpose a iha => exact iha h
  | simp a iha => exact iha h
  | «at» a i j iha => exact iha h
  | hstack cs a iha => exact Finset.sup_le fun k _ => iha k (h k)
  | vstack rs a iha => exact Finset.sup_le fun k _ => iha k (h k)
  | deriv a v iha => exact (Nat.sub_le _ _).trans (iha h)
  | subst a v s iha ihs => exact h.2.2

private theorem stack_get {α : Type} {Q : α → Prop} {d : α} (hd : Q d) {l : List α} (hl : ∀ x ∈ l, Q x) (i : ℕ) :
    Q (l[i]?.getD d) := by
  cases h : l[i]? with
  | none => exact hd
  | some x => exact hl x (List.mem_of_getElem? h)

private theorem flat_le {n : ℕ} (h : n ≤ 2) : degLE n ⊆ flat := (node_degLE h).flat

theorem AProg.Quadratic.entry {r c : ℕ} {p : AProg R r c} (h : p.Quadratic) (i j : ℕ) :
    (p.entry i j).In (degLE p.deg) := by
  induction p generalizing i j with
  | scalar p => exact Entry.in_make (flat_le h.deg_le) (Prog.Quadratic.fits h).check.2 (Prog.Quadratic.fits h).check.1
  | kvec f => exact Entry.in_const
  | kmat f => exact Entry.in_const
  | vvec f =>
    simp only [AProg.entry]
    split
    · exact Entry.in_var (single_degLE _ le_rfl)
    · exact Entry.in_const
  | vmat f =>
    simp only [AProg.entry]
    split
    · exact Entry.in_var (single_degLE _ le_rfl)
    · exact Entry.in_const
  | plus a b iha ihb =>
    exact Entry.In.add (flat_le h.deg_le) ((iha h.1 i j).mono (degLE_mono (le_max_left _ _)))
      ((ihb h.2 i j).mono (degLE_mono (le_max_right _ _)))
  | minus a b iha ihb =>
    exact Entry.In.add (flat_le h.deg_le) ((iha h.1 i j).mono (degLE_mono (le_max_left _ _)))
      (Entry.in_mul_const (flat_le h.deg_le) ((ihb h.2 i j).mono (degLE_mono (le_max_right _ _))))
  | plusS a s iha ihs =>
    exact Entry.In.add (flat_le h.deg_le) ((iha h.1 i j).mono (degLE_mono (le_max_left _ _)))
      ((ihs h.2 0 0).mono (degLE_mono (le_max_right _ _)))
  | minusS a s iha ihs =>
    exact Entry.In.add (flat_le h.deg_le) ((iha h.1 i j).mono (degLE_mono (le_max_left _ _)))
      (Entry.in_mul_const (flat_le h.deg_le) ((ihs h.2 0 0).mono (degLE_mono (le_max_right _ _))))
  | sPlus s a ihs iha =>
    exact Entry.In.add (flat_le h.deg_le) ((ihs h.1 0 0).mono (degLE_mono (le_max_left _ _)))
      ((iha h.2 i j).mono (degLE_mono (le_max_right _ _)))
  | sMinus s a ihs iha =>
    exact Entry.In.add (flat_le h.deg_le) ((ihs h.1 0 0).mono (degLE_mono (le_max_left _ _)))
      (Entry.in_mul_const (flat_le h.deg_le) ((iha h.2 i j).mono (degLE_mono (le_max_right _ _))))
  | mul a b iha ihb => exact Entry.in_dot (flat_le h.deg_le) (iha h.1) (ihb h.2.1) (prodIn_degLE _ _) i j _
  | mulS a s iha ihs => exact Entry.In.mul (flat_le h.deg_le) (iha h.1 i j) (ihs h.2.1 0 0) (prodIn_degLE _ _)
  | sMul s a ihs iha => exact Entry.In.mul (flat_le h.deg_le) (ihs h.1 0 0) (iha h.2.1 i j) (prodIn_degLE _ _)
  | pow a n iha =>
    exact (Entry.in_pow (iha h.1) n ((nsum_degLE _ _).trans (flat_le h.2)) i j).mono (nsum_degLE _ _)
  | transpose a iha => exact iha h j i
  | simp a iha => exact iha h i j
  | «at» a k l iha => exact iha h k l
  | hstack cs a iha =>
    refine stack_get (Q := fun a : Entry => a.In _) Entry.in_const (fun x hx => ?_) j
    obtain ⟨l, hl, hx⟩ := List.mem_flatten.mp hx
    obtain ⟨k, rfl⟩ := (List.mem_ofFn' _ _).mp hl
    obtain ⟨m, -, rfl⟩ := List.mem_map.mp hx
    exact (iha k (h k) i m).mono (degLE_mono (Finset.le_sup (f := fun k => (a k).deg) (Finset.mem_univ k)))
  | vstack rs a iha =>
    refine stack_get (Q := fun f : ℕ → Entry => (f j).In _) Entry.in_const (fun x hx => ?_) i
    obtain ⟨l, hl, hx⟩ := List.mem_flatten.mp hx
    obtain ⟨k, rfl⟩ := (List.mem_ofFn' _ _).mp hl
    obtain ⟨m, -, rfl⟩ := List.mem_map.mp hx
    exact (iha k (h k) m j).mono (degLE_mono (Finset.le_sup (f := fun k => (a k).deg) (Finset.mem_univ k)))
  | deriv a v iha =>
    refine (iha h i j).deriv (flat_le (AProg.Quadratic.deg_le (p := .deriv a v) h)) fun d hd => ?_
    have hd' : ((d + Finsupp.single v.id 1).sum fun _ e => e) ≤ a.deg := hd
    rw [degree_add, Finsupp.sum_single_index rfl] at hd'
    show (d.sum fun _ e => e) ≤ a.deg - 1
    omega
  | subst a v s iha ihs =>
    refine (iha h.1 i j).subst (S := fun _ => degLE (max 1 s.deg)) (flat_le h.2.2) (ihs h.2.1 0 0)
      (degLE_mono (le_max_right _ _)) (fun l _ => single_degLE _ (le_max_left _ _)) fun d hd => ?_
    exact substTerms_degLE (fun _ => subset_rfl) hd

/-- C76: programs all of whose intermediate results have expected degree at most two pass the check. -/
theorem quadratic_arrayChecked {r c : ℕ} {p : AProg R r c} (h : p.Quadratic) : p.checked = true := by
  unfold AProg.checked
  rw [List.all_eq_true]
  intro i _
  rw [List.all_eq_true]
  exact fun j _ => (h.entry i j).1

/-- Every entry of every intermediate result is a polynomial, of any degree, in one variable, those of the last one in the
variable with ID `x`.  The variable may change at a substitution. -/
def AProg.OneVar : {r c : ℕ} → AProg R r c → ℕ → Prop
  | _, _, .scalar p, x => p.OneVar x
  | _, _, .kvec _, _ | _, _, .kmat _, _ => True
  | _, _, .vvec f, x => ∀ i, (f i).id = x
  | _, _, .vmat f, x => ∀ i j, (f i j).id = x
  | _, _, .plus a b, x | _, _, .minus a b, x | _, _, .mul a b, x => a.OneVar x ∧ b.OneVar x
  | _, _, .plusS a s, x | _, _, .minusS a s, x | _, _, .mulS a s, x => a.OneVar x ∧ s.OneVar x
  | _, _, .sPlus s a, x | _, _, .sMinus s a, x | _, _, .sMul s a, x => s.OneVar x ∧ a.OneVar x
  | _, _, .pow a _, x | _, _, .transpose a, x | _, _, .simp a, x | _, _, .at a _ _, x => a.OneVar x
  | _, _, .hstack _ a, x | _, _, .vstack _ a, x => ∀ k, (a k).OneVar x
  | _, _, .deriv a _, x => a.OneVar x
  | _, _, .subst a v s, x => (a.OneVar x ∨ a.OneVar v.id) ∧ s.OneVar x

theorem AProg.OneVar.entry {r c x : ℕ} {p : AProg R r c} (h : p.OneVar x) (i j : ℕ) :
    (p.entry i j).In (univ1 x) := by
  have F := fun x => (node_univ1 x).flat
  induction p generalizing i j x with
  | scalar p => exact Entry.in_make (F x) (Prog.OneVar.fits h).check.2 (Prog.OneVar.fits h).check.1
  | kvec f => exact Entry.in_const
  | kmat f => exact Entry.in_const
  | vvec f =>
    simp only [AProg.entry]
    split
    · rw [h]
      exact Entry.in_var (single_univ1 x 1)
    · exact Entry.in_const
  | vmat f =>
    simp only [AProg.entry]
    split
    · rw [h]
      exact Entry.in_var (single_univ1 x 1)
    · exact Entry.in_const
  | plus a b iha ihb => exact Entry.In.add (F x) (iha h.1 i j) (ihb h.2 i j)
  | minus a b iha ihb => exact Entry.In.add (F x) (iha h.1 i j) (Entry.in_mul_const (F x) (ihb h.2 i j))
  | plusS a s iha ihs => exact Entry.In.add (F x) (iha h.1 i j) (ihs h.2 0 0)
  | minusS a s iha ihs => exact Entry.In.add (F x) (iha h.1 i j) (Entry.in_mul_const (F x) (ihs h.2 0 0))
  | sPlus s a ihs iha => exact Entry.In.add (F x) (ihs h.1 0 0) (iha h.2 i j)
  | sMinus s a ihs iha => exact Entry.In.add (F x) (ihs h.1 0 0) (Entry.in_mul_const (F x) (iha h.2 i j))
  | mul a b iha ihb => exact Entry.in_dot (F x) (iha h.1) (ihb h.2) (prodIn_univ1 x) i j _
  | mulS a s iha ihs => exact Entry.In.mul (F x) (iha h.1 i j) (ihs h.2 0 0) (prodIn_univ1 x)
  | sMul s a ihs iha => exact Entry.In.mul (F x) (ihs h.1 0 0) (iha h.2 i j) (prodIn_univ1 x)
  | pow a n iha => exact (Entry.in_pow (iha h) n ((nsum_univ1 x n).trans (F x)) i j).mono (nsum_univ1 x n)
  | transpose a iha => exact iha h j i
  | simp a iha => exact iha h i j
  | «at» a k l iha => exact iha h k l
  | hstack cs a iha =>
    refine stack_get (Q := fun a : Entry => a.In _) Entry.in_const (fun y hy => ?_) j
    obtain ⟨l, hl, hy⟩ := List.mem_flatten.mp hy
    obtain ⟨k, rfl⟩ := (List.mem_ofFn' _ _).mp hl
    obtain ⟨m, -, rfl⟩ := List.mem_map.mp hy
    exact iha k (h k) i m
  | vstack rs a iha =>
    refine stack_get (Q := fun f : ℕ → Entry => (f j).In _) Entry.in_const (fun y hy => ?_) i
    obtain ⟨l, hl, hy⟩ := List.mem_flatten.mp hy
    obtain ⟨k, rfl⟩ := (List.mem_ofFn' _ _).mp hl
    obtain ⟨m, -, rfl⟩ := List.mem_map.mp hy
    exact iha k (h k) m j
  | deriv a v iha =>
    refine (iha h i j).deriv (F x) fun d hd i hi => ?_
    refine hd (Finsupp.mem_support_iff.mpr ?_)
    rw [Finsupp.mem_support_iff] at hi
    rw [Finsupp.add_apply]
    omega
  | subst a v s iha ihs =>
    obtain ⟨y, hy, hyx⟩ : ∃ y, a.OneVar y ∧ (y = x ∨ y = v.id) := by
      rcases h.1 with h' | h'
      · exact ⟨_, h', .inl rfl⟩
      · exact ⟨_, h', .inr rfl⟩
    refine (iha hy i j).subst (S := substTermsFor v (univ1 x)) (F x) (ihs h.2 0 0) ?_ (fun l hl => ?_)
      fun d hd => substTerms_univ1 fun l hl => ?_
    · unfold substTermsFor
      rw [if_pos rfl]
    · unfold substTermsFor
      rw [if_neg hl]
      rfl
    · have hl' : l = y := Finset.mem_singleton.mp (hd hl)
      unfold substTermsFor
      split
      · exact subset_rfl
      · rename_i hne
        rcases hyx with rfl | rfl
        · rintro _ rfl
          rw [hl']
          exact single_univ1 _ 1
        · exact absurd hl' hne

/-- C76: programs in one variable, of any degree, pass the check. -/
theorem oneVar_arrayChecked {r c x : ℕ} {p : AProg R r c} (h : p.OneVar x) : p.checked = true := by
  unfold AProg.checked
  rw [List.all_eq_true]
  intro i _
  rw [List.all_eq_true]
  exact fun j _ => (h.entry i j).1

/-! ## Examples -/

/-- The quadratic form `(A v)ᵀ v` of the variables `v`, for every size and all coefficients, and its derivatives. -/
example (n : ℕ) (A : Fin (n + 1) → Fin (n + 1) → ℚ) (f : Fin (n + 1) → Var ℚ) (v : Var ℚ) :
    (AProg.deriv (.mul (.transpose (.mul (.kmat A) (.vvec f))) (.vvec f)) v).checked = true :=
  quadratic_arrayChecked ⟨⟨trivial, trivial, by simp [AProg.deg]⟩, trivial, by simp [AProg.deg]⟩

/-- The powers of a matrix of polynomials in one variable. -/
example (n : ℕ) (M : Fin 2 → Fin 2 → Prog ℚ) (h : ∀ i j, (M i j).OneVar 0) :
    (AProg.pow (.vstack (m := 1) (fun _ => 1) fun i => .hstack (m := 1) (fun _ => 1) fun j => .scalar (M i j)) n
      : AProg ℚ 2 2).checked = true :=
  oneVar_arrayChecked (x := 0) fun i j => h i j

end Verif
