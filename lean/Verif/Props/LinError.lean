import Verif.Model.LinError
import Verif.Props.Errors
import Verif.Props.Text

/-!
# C97: the error of `LinearCoeff` for an expression without variables shows the constant
-/

set_option linter.unusedSectionVars false

namespace Verif

open MvPolynomial

/-! ## Specification -/

/-- The text for an expression with the text `s` and the type `t`. -/
def constantMessage (s t : String) : String :=
  s!"linear coefficients error: cannot find linear coefficients of object {s} (type {t}) which represents a constant (i.e., this is a polynomial that equals a constant like 3.14)!"

/-- The text for a number. -/
def numberMessage : String := "the expression of type symbolic.K has no variables to compute linear coefficients for"

section Reports
variable {S : Type} [GoNum S] {fmt : S → List Char}

private theorem constantMessage_eq {e : Expr S} {t : List Char} (h : e.chars fmt = .ok t) :
    (LinError.ofConstant e).text fmt = .ok (constantMessage (String.ofList t) (typeName e)).toList := by
  show (e.chars fmt >>= fun s => pure _) = _
  unfold constantMessage
  rw [← like_goType, h, Go.ok_bind, Go.pure_eq]
  simp only [toString_str, String.toList_append, String.toList_ofList]

private theorem poly_variables_nil {p : Poly S} : p.variables = [] ↔ ∀ v, ¬ (Scalar.poly p).Mentions v := by
  unfold Poly.variables
  constructor
  · rintro h v ⟨m, hm, hv⟩
    have := (uniqueVars_ids (p.monos.flatMap (·.vars)) v.id).mpr
      (List.mem_map.mpr ⟨v, List.mem_flatMap.mpr ⟨m, hm, hv⟩, rfl⟩)
    rw [h] at this
    simp at this
  · intro h
    refine List.eq_nil_iff_forall_not_mem.mpr fun v hv => ?_
    obtain ⟨m, hm, hv'⟩ := List.mem_flatMap.mp (uniqueVars_subset hv)
    exact h v ⟨m, hm, hv'⟩

/-- The text for an expression whose `String` is `t`. -/
def linMessage (e : Expr S) (t : List Char) : String :=
  match e with
  | .s (.k _) => numberMessage
  | e => constantMessage (String.ofList t) (typeName e)

/-- C97: `LinearCoeff` of a scalar without an argument: an error exactly for an expression without variables. -/
theorem linearCoeff_scalar_reports {e : Scalar S} (he : e.Canon) {t : List Char} (ht : e.chars fmt = .ok t) :
    (e.linearCoeffError [] = .ok none ↔ ∃ v, e.Mentions v) ∧
    ((∀ v, ¬ e.Mentions v) → e.linearCoeff [] = .error .linCoeffConst ∧ ∃ err, e.linearCoeffError [] = .ok (some err) ∧
      err.text fmt = .ok (linMessage (.s e) t).toList) := by
  cases e with
  | k c =>
    refine ⟨⟨fun h => by simp [Scalar.linearCoeffError, Go.pure_eq] at h, fun ⟨v, h⟩ => h.elim⟩, fun _ =>
      ⟨rfl, _, rfl, ?_⟩⟩
    show (SmError.emptyLinearCoeffs "symbolic.K".toList).text = .ok numberMessage.toList
    decide +kernel
  | var v =>
    refine ⟨⟨fun _ => ⟨v, rfl⟩, fun _ => ?_⟩, fun h => absurd rfl (h v)⟩
    unfold Scalar.linearCoeffError
    dsimp only
    rw [Var.OK.check he]
    rfl
  | mono m =>
    have hm : m.Canon := he
    have e1 : (Scalar.mono m).linearCoeffError [] =
        .ok (if m.vars.isEmpty then some (.ofConstant (.s (.mono m))) else none) := by
      unfold Scalar.linearCoeffError
      dsimp only
      rw [hm.check]
      rfl
    constructor
    · rw [e1]
      cases hv : m.vars with
      | nil => simp [Scalar.Mentions, hv]
      | cons v l => simpa [Scalar.Mentions, hv] using ⟨v, Or.inl rfl⟩
    · intro h
      have hv : m.vars = [] := List.eq_nil_iff_forall_not_mem.mpr h
      refine ⟨?_, .ofConstant (.s (.mono m)), by rw [e1, hv]; rfl, constantMessage_eq ht⟩
      show m.linearCoeff [] = _
      unfold Mono.linearCoeff
      rw [hm.check, Go.ok_bind, hv]
      rfl
  | poly p =>
    have hp : p.Canon := he
    have e1 : (Scalar.poly p).linearCoeffError [] =
        .ok (if p.variables.isEmpty then some (.ofConstant (.s (.poly p))) else none) := by
      unfold Scalar.linearCoeffError
      dsimp only
      rw [hp.check]
      rfl
    constructor
    · rw [e1]
      by_cases hv : p.variables = []
      · have := poly_variables_nil.mp hv
        simp [hv, this]
      · have : ∃ v, (Scalar.poly p).Mentions v := by
          by_contra hc
          exact hv (poly_variables_nil.mpr (not_exists.mp hc))
        simp [hv, this]
    · intro h
      have hv : p.variables = [] := poly_variables_nil.mpr h
      refine ⟨?_, .ofConstant (.s (.poly p)), by rw [e1, hv]; rfl, constantMessage_eq ht⟩
      show p.linearCoeff [] = _
      unfold Poly.linearCoeff
      rw [hp.check, Go.ok_bind, hv]
      rfl

private theorem uniqueVars_nil {l : List (Var S)} : uniqueVars l = [] ↔ ∀ v, v ∉ l := by
  constructor
  · intro h v hv
    have := (uniqueVars_ids l v.id).mpr (List.mem_map.mpr ⟨v, hv, rfl⟩)
    rw [h] at this
    simp at this
  · intro h
    exact List.eq_nil_iff_forall_not_mem.mpr fun v hv => h v (uniqueVars_subset hv)

private theorem vec_variables {a : Vec S} (h : a.check = .ok ()) :
    ∃ ws, Expr.variables (.v a) = .ok ws ∧ (ws = [] ↔ ∀ v, ¬ (Expr.v a).Mentions v) := by
  have ment : ∀ v, (Expr.v a).Mentions v ↔ ∃ x ∈ a.entries, x.Mentions v := fun v => by
    simp [Expr.Mentions, Expr.grid]
  simp only [ment]
  cases a with
  | k l => exact ⟨[], rfl, by simp [Vec.entries, Scalar.Mentions]⟩
  | v l =>
    refine ⟨_, rfl, uniqueVars_nil.trans ?_⟩
    simp [Vec.entries, Scalar.Mentions]
  | m l =>
    refine ⟨uniqueVars (l.flatMap Mono.variables), ?_, uniqueVars_nil.trans ?_⟩
    · unfold Expr.variables
      dsimp only
      rw [h]
      rfl
    · simp [Vec.entries, Scalar.Mentions, Mono.variables]
  | p l =>
    refine ⟨_, rfl, uniqueVars_nil.trans ?_⟩
    constructor
    · rintro h v ⟨x, hx, hv⟩
      obtain ⟨p, hp, rfl⟩ := List.mem_map.mp hx
      by_cases hn : p.variables = []
      · exact poly_variables_nil.mp hn v hv
      · obtain ⟨w, hw⟩ := List.exists_mem_of_ne_nil _ hn
        exact h w (List.mem_flatMap.mpr ⟨p, hp, hw⟩)
    · intro h v hv
      obtain ⟨p, hp, hv⟩ := List.mem_flatMap.mp hv
      have := poly_variables_nil.mpr fun w hw => h w ⟨.poly p, List.mem_map.mpr ⟨p, hp, rfl⟩, hw⟩
      rw [this] at hv
      simp at hv

/-- C97: `LinearCoeff` of a vector without an argument. -/
theorem linearCoeff_vec_reports {a : Vec S} {n : ℕ} (ha : (Expr.v a).Canon) (sa : (Expr.v a).Shape n 1) (hn : 0 < n)
    {t : List Char} (ht : (Expr.v a).chars fmt = .ok t) :
    (a.linearCoeffError [] = .ok none ↔ ∃ v, (Expr.v a).Mentions v) ∧
    ((∀ v, ¬ (Expr.v a).Mentions v) → a.linearCoeff [] = .error .linCoeffConst ∧
      ∃ err, a.linearCoeffError [] = .ok (some err) ∧ err.text fmt = .ok (linMessage (.v a) t).toList) := by
  have hc : a.check = .ok () := (nice_check ha sa hn).1
  obtain ⟨ws, hw, hiff⟩ := vec_variables hc
  have e1 : a.linearCoeffError [] = .ok (if ws.isEmpty then some (.ofConstant (.v a)) else none) := by
    unfold Vec.linearCoeffError
    rw [hc, Go.ok_bind]
    dsimp only
    rw [hw]
    rfl
  constructor
  · rw [e1]
    by_cases hv : ws = []
    · simp [hv, hiff.mp hv]
    · have : ∃ v, (Expr.v a).Mentions v := by
        by_contra hx
        exact hv (hiff.mpr (not_exists.mp hx))
      simp [hv, this]
  · intro h
    have hv := hiff.mpr h
    refine ⟨?_, .ofConstant (.v a), by rw [e1, hv]; rfl, constantMessage_eq ht⟩
    unfold Vec.linearCoeff
    rw [hc, Go.ok_bind]
    dsimp only
    rw [hw, hv]
    rfl

/-- C97: with an empty list of variables the error is the same, whatever the expression. -/
theorem linearCoeff_empty_reports {e : Scalar S} (he : e.Canon) {t : List Char} (ht : e.chars fmt = .ok t) :
    ∃ err, e.linearCoeffError [[]] = .ok (some err) ∧ err.text fmt = .ok (linMessage (.s e) t).toList := by
  cases e with
  | k c =>
    refine ⟨_, rfl, ?_⟩
    show (SmError.emptyLinearCoeffs "symbolic.K".toList).text = .ok numberMessage.toList
    decide +kernel
  | var v =>
    refine ⟨.ofConstant (.s (.var v)), ?_, constantMessage_eq ht⟩
    unfold Scalar.linearCoeffError
    dsimp only
    rw [Var.OK.check he]
    rfl
  | mono m =>
    refine ⟨.ofConstant (.s (.mono m)), ?_, constantMessage_eq ht⟩
    unfold Scalar.linearCoeffError
    dsimp only
    rw [Mono.Canon.check he]
    rfl
  | poly p =>
    refine ⟨.ofConstant (.s (.poly p)), ?_, constantMessage_eq ht⟩
    unfold Scalar.linearCoeffError
    dsimp only
    rw [Poly.Canon.check he]
    rfl

private theorem typeName_noBracket (e : Expr S) : '(' ∉ (typeName e).toList := by
  rcases e with a | a | a <;> cases a <;> (simp only [typeName, String.toList_append]; decide +kernel)

/-- C97: the text determines the text of the expression and its type. -/
theorem constantMessage_inj {a b : Expr S} {s s' : List Char}
    (h : constantMessage (String.ofList s) (typeName a) = constantMessage (String.ofList s') (typeName b)) :
    s = s' ∧ typeName a = typeName b := by
  have h := congrArg String.toList h
  unfold constantMessage at h
  simp only [toString_str, String.toList_append, String.toList_ofList] at h
  have h := List.append_cancel_right h
  simp only [List.append_assoc] at h
  have h := List.append_cancel_left h
  rw [show " (type ".toList = [' '] ++ '(' :: "type ".toList by decide] at h
  simp only [List.append_assoc, List.cons_append, List.nil_append] at h
  have n : ∀ e : Expr S, '(' ∉ "type ".toList ++ (typeName e).toList := fun e hm => by
    rcases List.mem_append.mp hm with hm | hm
    · revert hm; decide
    · exact typeName_noBracket e hm
  have h : (s ++ [' ']) ++ '(' :: ("type ".toList ++ (typeName a).toList) =
      (s' ++ [' ']) ++ '(' :: ("type ".toList ++ (typeName b).toList) := by simpa using h
  obtain ⟨h1, h2⟩ := last_split h (n a) (n b)
  exact ⟨List.append_cancel_right h1, String.toList_inj.mp (List.append_cancel_left h2)⟩

end Reports

section Values
variable {R : Type} [Field R] [LinearOrder R] [IsStrictOrderedRing R] {fmt : R → List Char}

/-- C97: the text is right about an expression without variables: it denotes a constant. -/
theorem constant_of_noVars {e : Scalar R} (h : ∀ v, ¬ e.Mentions v) : ∃ c, e.den = C c := by
  have mono : ∀ m : Mono R, m.vars = [] → m.den = C m.coeff := fun m hm => by
    have : m.degs = 0 := by simp [Mono.degs, hm]
    rw [Mono.den, this]
    rfl
  cases e with
  | k c => exact ⟨c, rfl⟩
  | var v => exact absurd rfl (h v)
  | mono m => exact ⟨_, mono m (List.eq_nil_iff_forall_not_mem.mpr h)⟩
  | poly p =>
    have h' : ∀ m ∈ p.monos, m.vars = [] := fun m hm => List.eq_nil_iff_forall_not_mem.mpr fun v hv => h v ⟨m, hm, hv⟩
    show ∃ c, p.den = C c
    unfold Poly.den
    generalize p.monos = l at h'
    induction l with
    | nil => exact ⟨0, by simp⟩
    | cons m l ih =>
      obtain ⟨c, hc⟩ := ih fun m hm => h' m (by simp [hm])
      refine ⟨m.coeff + c, ?_⟩
      rw [List.map_cons, List.sum_cons, hc, mono m (h' m (by simp)), C_add]

/-- C97: two expressions without variables for which the texts are the same have the same type and shape, and
the same constants in all entries. -/
theorem constantMessage_values (hF : NumFormat fmt) {a b : Expr R} {r c r' c' : ℕ} (ha : a.Canon) (hb : b.Canon)
    (va : ∀ v, ¬ a.Mentions v) (vb : ∀ v, ¬ b.Mentions v) (sa : a.Shape r c) (sb : b.Shape r' c') (hr : 0 < r)
    (hr' : 0 < r') {s s' : List Char} (hs : a.chars fmt = .ok s) (hs' : b.chars fmt = .ok s')
    (h : constantMessage (String.ofList s) (typeName a) = constantMessage (String.ofList s') (typeName b)) :
    typeName a = typeName b ∧ a.denGrid = b.denGrid := by
  obtain ⟨h1, h2⟩ := constantMessage_inj h
  exact ⟨h2, string_den_partial hF ha hb (fun v hv => absurd hv (va v)) (fun v hv => absurd hv (vb v)) sa sb hr hr'
    (by rw [hs, hs', h1])⟩

end Values

/-! ## Expressions that meet the hypotheses, and one for which the text is wrong -/

private def leV : Var ℚ := ⟨7, -1, 1, 0, "x_7", 0⟩

private theorem leV_ok : leV.OK := by
  show decide (leV.upper ≤ leV.lower) = false
  decide +kernel

/-- `(3 + 4).LinearCoeff()`. -/
example : ∃ err, (Scalar.poly (⟨[⟨3, [], []⟩, ⟨4, [], []⟩]⟩ : Poly ℚ)).linearCoeffError [] = .ok (some err) ∧
    err.text ratChars = .ok (constantMessage "3/1 + 4/1" "symbolic.Polynomial").toList := by
  have hc : (Scalar.poly (⟨[⟨3, [], []⟩, ⟨4, [], []⟩]⟩ : Poly ℚ)).Canon :=
    ⟨by simp, by simp; exact ⟨⟨rfl, by simp, by simp, by simp⟩, ⟨rfl, by simp, by simp, by simp⟩⟩⟩
  obtain ⟨-, h⟩ := linearCoeff_scalar_reports (fmt := ratChars) hc (t := "3/1 + 4/1".toList) (by decide +kernel)
  obtain ⟨-, err, h1, h2⟩ := h (by rintro v ⟨m, hm, hv⟩; simp at hm; rcases hm with rfl | rfl <;> simp at hv)
  exact ⟨err, h1, h2⟩

/-- C97: `x.LinearCoeff([]Variable{})` fails with a text that says that `x` represents a constant. -/
theorem linearCoeff_text_false : ∃ (x : Var ℚ) (err : LinError ℚ), x.OK ∧
    (Scalar.var x).linearCoeffError [[]] = .ok (some err) ∧
    err.text ratChars = .ok (constantMessage "x_7" "symbolic.Variable").toList ∧ ¬ ∃ c, (Scalar.var x).den = C c := by
  obtain ⟨err, h1, h2⟩ := linearCoeff_empty_reports (fmt := ratChars) (e := .var leV) leV_ok (t := "x_7".toList) rfl
  refine ⟨leV, err, leV_ok, h1, h2, ?_⟩
  rintro ⟨c, hc⟩
  have h3 : (X 7 : MvPolynomial ℕ ℚ) = C c := hc
  have := congrArg (coeff (Finsupp.single 7 1)) h3
  simp [coeff_C, eq_comm] at this

end Verif
