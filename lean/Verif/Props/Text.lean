import Verif.Lemmas.Text
import Verif.Model.Env
import Verif.Props.Compile
import Verif.Props.Convert
import Verif.SpecConstraint
import Verif.Witness

/-!
# C53: printed expressions can be told apart

For variables with the names that `NewVariable` chooses, the text of an expression determines its type,
its shape and, in every entry, the terms that are written; with them the polynomial denoted.
-/

set_option linter.unusedSectionVars false

namespace Verif

open MvPolynomial

variable {R : Type}

/-! ## Specification -/

/-- The terms written in a scalar, in order: coefficient, IDs of the factors, exponents. -/
def Scalar.written [One R] : Scalar R → List (R × List ℕ × List ℤ)
  | .k c => [(c, [], [])]
  | .var v => [(1, [v.id], [1])]
  | .mono m => [(m.coeff, m.vars.map (·.id), m.exps)]
  | .poly p => p.monos.map fun m => (m.coeff, m.vars.map (·.id), m.exps)

/-- Same shape, and in every entry the same terms in the same order. -/
def Expr.SameWritten [One R] (a b : Expr R) : Prop :=
  List.Forall₂ (List.Forall₂ fun x y => Scalar.written x = Scalar.written y) a.grid b.grid

/-- The type of an array; the four scalar types are not told apart. -/
def Expr.typeName : Expr R → String
  | .s _ => "scalar"
  | .v (.k _) => "KVector"
  | .v (.v _) => "VariableVector"
  | .v (.m _) => "MonomialVector"
  | .v (.p _) => "PolynomialVector"
  | .m (.k _) => "KMatrix"
  | .m (.v _) => "VariableMatrix"
  | .m (.m _) => "MonomialMatrix"
  | .m (.p _) => "PolynomialMatrix"

/-- All variables have the name that `NewVariable` gave them. -/
def Scalar.DefaultNames (a : Scalar R) : Prop := ∀ v, a.Mentions v → v.name = s!"x_{v.id}"

def Expr.DefaultNames (e : Expr R) : Prop := ∀ v, e.Mentions v → v.name = s!"x_{v.id}"

/-- The names that `NewContinuousVariable` and `NewBinaryVariable` choose. -/
theorem newVar_default [GoNum R] (binary : Bool) (n e : ℕ) :
    (newVarValue (R := R) binary n e).name = s!"x_{(newVarValue (R := R) binary n e).id}" := by
  unfold newVarValue; cases binary <;> rfl

/-! ## Scalars -/

section
variable [Field R] [LinearOrder R] {fmt : R → List Char}

theorem written_toPoly (a : Scalar R) : a.written = a.toPoly.monos.map Mono.key := by
  cases a <;> rfl

theorem written_den {a b : Scalar R} (h : a.written = b.written) : a.den = b.den := by
  have hd : ∀ a : Scalar R, a.den = (a.written.map fun k =>
      monomial ((k.2.1.zip k.2.2).map fun x => Finsupp.single x.1 x.2.toNat).sum k.1).sum := by
    have hm : ∀ m : Mono R, m.den =
        monomial (((m.vars.map (·.id)).zip m.exps).map fun x => Finsupp.single x.1 x.2.toNat).sum m.coeff := by
      intro m
      unfold Mono.den Mono.degs
      rw [List.zip_map_left, List.map_map]
      rfl
    intro a
    cases a with
    | k c => simp [Scalar.written, Scalar.den]
    | var v => simp [Scalar.written, Scalar.den, X]
    | mono m => simp [Scalar.written, Scalar.den, hm]
    | poly p =>
      simp only [Scalar.written, Scalar.den, Poly.den, List.map_map, Function.comp_def]
      congr 1
      exact List.map_congr_left fun m _ => hm m
  rw [hd, hd, h]

theorem scalar_terms {a : Scalar R} (h : a.Canon) (hd : a.DefaultNames) :
    a.toPoly.monos ≠ [] ∧ ∀ m ∈ a.toPoly.monos, m.Len ∧ m.Default := by
  cases a with
  | k c => exact ⟨by simp [Scalar.toPoly, kToPoly], by
      simp [Scalar.toPoly, kToPoly, kToMono, Mono.Len, Mono.Default]⟩
  | var v => exact ⟨by simp [Scalar.toPoly, Var.toPoly], by
      simp only [Scalar.toPoly, Var.toPoly, Var.toMono, Mono.Len, Mono.Default,
        List.mem_singleton, forall_eq]
      exact ⟨rfl, hd v rfl⟩⟩
  | mono m => exact ⟨by simp [Scalar.toPoly, Mono.toPoly], by
      simp only [Scalar.toPoly, Mono.toPoly, List.mem_singleton, forall_eq]
      exact ⟨h.len, fun v hv => hd v hv⟩⟩
  | poly p => exact ⟨h.ne, fun m hm => ⟨(h.all m hm).len, fun v hv => hd v ⟨m, hm, hv⟩⟩⟩

end

section
variable [Field R] [LinearOrder R] [IsStrictOrderedRing R] {fmt : R → List Char}

theorem k_text (c : R) : fmt c = stext fmt (.k c) := by
  simp [stext, ltext, ttext, mtext, Scalar.toPoly, kToPoly, kToMono]

theorem var_text (v : Var R) : v.name.toList = stext fmt (.var v) := by
  simp [stext, ltext, ttext, mtext, Scalar.toPoly, Var.toPoly, Var.toMono, factorChars]

theorem scalar_chars {a : Scalar R} (h : a.Canon) : a.chars fmt = .ok (stext fmt a) := by
  cases a with
  | k c => rw [Scalar.chars, Go.pure_eq, k_text (fmt := fmt) c]
  | var v => rw [Scalar.chars, Go.pure_eq, var_text (fmt := fmt)]
  | mono m =>
    simp only [Scalar.chars, stext, ltext, ttext, Scalar.toPoly, Mono.toPoly, List.append_nil]
    exact mono_chars h.len
  | poly p =>
    simp only [Scalar.chars, stext, Scalar.toPoly, Poly.chars]
    rw [Poly.Canon.check h, Go.ok_bind]
    cases hp : p.monos with
    | nil => exact absurd hp h.ne
    | cons m l =>
      dsimp only
      rw [mono_chars (h.all m (by simp [hp])).len, Go.ok_bind,
        tail_chars fun m hm => (h.all m (by simp [hp, hm])).len, Go.ok_bind]
      rfl

theorem scalar_inj (hF : NumFormat fmt) {a b : Scalar R} (ha : a.Canon) (hb : b.Canon) (da : a.DefaultNames)
    (db : b.DefaultNames) {s t : List Char} (hs : Stop2 s) (ht : Stop2 t)
    (h : stext fmt a ++ s = stext fmt b ++ t) : a.written = b.written ∧ s = t := by
  obtain ⟨n1, h1⟩ := scalar_terms ha da
  obtain ⟨n2, h2⟩ := scalar_terms hb db
  obtain ⟨k1, k2⟩ := list_inj hF n1 n2 h1 h2 hs ht h
  exact ⟨by rw [written_toPoly, written_toPoly, k1], k2⟩

/-- The first character of a scalar belongs to a number or to a name. -/
theorem scalar_head (hF : NumFormat fmt) {a : Scalar R} (ha : a.Canon) (da : a.DefaultNames) :
    ∃ x r, stext fmt a = x :: r ∧ x ∉ [' ', ',', '[', ']', 'V', 'M', 'P'] := by
  obtain ⟨n1, h1⟩ := scalar_terms ha da
  unfold stext
  cases hm : a.toPoly.monos with
  | nil => exact absurd hm n1
  | cons m l =>
    have hl := h1 m (by rw [hm]; simp)
    rw [ltext]
    unfold mtext
    have num : ∀ u, ∃ x r, fmt m.coeff ++ u = x :: r ∧ x ∉ [' ', ',', '[', ']', 'V', 'M', 'P'] := by
      intro u
      cases hf : fmt m.coeff with
      | nil => exact absurd hf (hF.ne _)
      | cons x r =>
        refine ⟨x, r ++ u, rfl, ?_⟩
        have := hF.chars m.coeff x (by rw [hf]; simp)
        simp only [List.mem_cons, not_or] at this ⊢
        tauto
    split
    · exact num _
    · rename_i hv
      split
      · cases hvs : m.vars with
        | nil => exact absurd hvs hv
        | cons v vs =>
          cases hes : m.exps with
          | nil =>
            have := hl.1
            unfold Mono.Len at this
            rw [hvs, hes] at this; simp at this
          | cons e es =>
            rw [factorChars, (hl.2 v (by rw [hvs]; simp)).toList]
            exact ⟨_, _, rfl, by decide⟩
      · rw [List.append_assoc]
        exact num _

/-! ## Vectors and matrices -/

variable (fmt)

def vtext (a : Vec R) : List Char :=
  (match a with
    | .k _ => ['[']
    | .v _ => "VariableVector = [".toList
    | .m _ => "MonomialVector = [".toList
    | .p _ => "PolynomialVector = [".toList) ++ inter [',', ' '] [']'] (stext fmt) a.entries

def matText (a : Mat R) : List Char :=
  match a with
  | .k _ => '[' :: inter [',', '\n', ' ', '['] [']', '\n']
      (fun row => '[' :: inter [','] [']'] (stext fmt) row) a.entries
  | .v _ => '[' :: inter [',', ' '] [']'] (fun row => '[' :: inter [',', ' '] [']'] (stext fmt) row) a.entries
  | .m _ => "MonomialMatrix =\n[ ".toList ++ inter [',', '\n', ' '] [' ', ']']
      (fun row => '[' :: ' ' :: inter [',', ' '] [']', ','] (stext fmt) row) a.entries
  | .p _ => "PolynomialMatrix =\n[".toList ++ inter [',', '\n'] [']']
      (fun row => '[' :: inter [',', ' '] [']'] (stext fmt) row) a.entries

def etext : Expr R → List Char
  | .s a => stext fmt a
  | .v a => vtext fmt a
  | .m a => matText fmt a

variable {fmt}

theorem inter_map {α β : Type} (sep close : List Char) (E : β → List Char) (f : α → β) (l : List α) :
    inter sep close E (l.map f) = inter sep close (fun x => E (f x)) l := by
  induction l with
  | nil => rfl
  | cons a l ih =>
    cases l with
    | nil => rfl
    | cons b l =>
      rw [List.map_cons, List.map_cons, inter, inter, ← ih]
      rfl

theorem inter_congr {α : Type} {sep close : List Char} {E F : α → List Char} {l : List α}
    (h : ∀ a ∈ l, E a = F a) : inter sep close E l = inter sep close F l := by
  induction l with
  | nil => rfl
  | cons a l ih =>
    cases l with
    | nil => simp [inter, h a (by simp)]
    | cons b l =>
      rw [inter, inter, ih fun x hx => h x (by simp [hx]), h a (by simp)]

/-- The loop of `KMatrix.String`, which puts the closing brackets inside the loop. -/
theorem rows_inter {α : Type} {sep close : List Char} {E : α → List Char} {l : List α} {n : ℕ}
    (hn : l.length = n) (hl : l ≠ []) :
    l.zipIdx.flatMap (fun x => E x.1 ++ if x.2 + 1 ≠ n then sep else close) = inter sep close E l := by
  have h : ∀ (l : List α) k, l ≠ [] → k + l.length = n →
      (l.zipIdx k).flatMap (fun x => E x.1 ++ if x.2 + 1 ≠ n then sep else close) =
        inter sep close E l := by
    intro l
    induction l with
    | nil => intro k h; exact absurd rfl h
    | cons a l ih =>
      intro k _ hk
      cases l with
      | nil =>
        simp only [List.length_cons, List.length_nil] at hk
        simp [inter, hk]
      | cons b l =>
        have hk' : k + 1 ≠ n := by simp only [List.length_cons] at hk; omega
        rw [List.zipIdx_cons, List.flatMap_cons,
          ih (k + 1) (by simp) (by simp only [List.length_cons] at hk ⊢; omega)]
        simp [inter, hk']
  exact h l 0 hl (by omega)

private theorem vec_chars {a : Vec R} {r c : ℕ} (h : (Expr.v a).Canon) (hs : (Expr.v a).Shape r c)
    (hr : 0 < r) : a.chars fmt = .ok (vtext fmt a) := by
  have hc : ∀ x ∈ a.entries, x.Canon := fun x hx =>
    h [x] (List.mem_map.mpr ⟨x, hx, rfl⟩) x (by simp)
  have hck : a.check = .ok () := Expr.check_ok h hs hr
  cases a with
  | k l =>
    have h1 : Vec.chars fmt (.k l) = .ok ('[' :: (joinLoop l.length [',', ' '] (l.map fmt) ++ [']'])) := rfl
    rw [h1, List.map_congr_left fun x _ => k_text (fmt := fmt) x, joinLoop_inter rfl]
    unfold vtext Vec.entries
    rw [inter_map]
    rfl
  | v l =>
    have h1 : Vec.chars fmt (.v l) = (do
        Vec.check (.v l)
        return "VariableVector = [".toList ++ joinLoop l.length [',', ' '] (l.map (·.name.toList)) ++ [']']) := rfl
    rw [h1, hck, Go.ok_bind, Go.pure_eq, List.map_congr_left fun x _ => var_text (fmt := fmt) x, List.append_assoc, joinLoop_inter rfl]
    unfold vtext Vec.entries
    rw [inter_map]
  | m l =>
    have h1 : Vec.chars fmt (.m l) = (do
        Vec.check (.m l)
        let items ← l.mapM (Mono.chars fmt)
        return "MonomialVector = [".toList ++ joinLoop l.length [',', ' '] items ++ [']']) := rfl
    rw [h1, hck, Go.ok_bind, mapM_eq _ (f := Mono.chars fmt) (g := fun x => stext fmt (.mono x)) fun x hx =>
      scalar_chars (fmt := fmt) (a := .mono x) (hc (.mono x) (List.mem_map.mpr ⟨x, hx, rfl⟩)),
      Go.ok_bind, Go.pure_eq, List.append_assoc, joinLoop_inter rfl]
    unfold vtext Vec.entries
    rw [inter_map]
  | p l =>
    have h1 : Vec.chars fmt (.p l) = (do
        Vec.check (.p l)
        let items ← l.mapM (Poly.chars fmt)
        return "PolynomialVector = [".toList ++ joinLoop l.length [',', ' '] items ++ [']']) := rfl
    rw [h1, hck, Go.ok_bind, mapM_eq _ (f := Poly.chars fmt) (g := fun x => stext fmt (.poly x)) fun x hx =>
      scalar_chars (fmt := fmt) (a := .poly x) (hc (.poly x) (List.mem_map.mpr ⟨x, hx, rfl⟩)),
      Go.ok_bind, Go.pure_eq, List.append_assoc, joinLoop_inter rfl]
    unfold vtext Vec.entries
    rw [inter_map]

private theorem mat_chars {a : Mat R} {r c : ℕ} (h : (Expr.m a).Canon) (hs : (Expr.m a).Shape r c)
    (hr : 0 < r) : a.chars fmt = .ok (matText fmt a) := by
  have hc : ∀ row ∈ a.entries, ∀ x ∈ row, x.Canon := h
  have hck : a.check = .ok () := Expr.check_ok h hs hr
  have hdm : a.dims = .ok (r, c) := Expr.dims_ok h hs hr
  obtain ⟨hl, hw⟩ := hs
  have hl : a.entries.length = r := hl
  have hw : ∀ row ∈ a.entries, row.length = c := hw
  have mrow : ∀ {α : Type} {f : α → Scalar R} {rows : List (List α)}, a.entries = rows.map (·.map f) →
      ∀ row ∈ rows, row.length = c ∧ ∀ x ∈ row, (f x).Canon := by
    intro α f rows ha row hrow
    have hm : row.map f ∈ a.entries := by rw [ha]; exact List.mem_map.mpr ⟨row, hrow, rfl⟩
    exact ⟨by simpa using hw _ hm, fun x hx => hc _ hm _ (List.mem_map.mpr ⟨x, hx, rfl⟩)⟩
  unfold Mat.chars matText
  cases a with
  | k rows =>
    have hrow := mrow (f := .k) rfl
    have hn : rows.length = r := by simpa [Mat.entries] using hl
    simp only [kmatChars, Mat.entries, inter_map, Go.pure_eq, hdm, Go.ok_bind]
    rw [rows_inter (E := fun row => '[' :: joinLoop c [','] (row.map fmt) ++ [']']) hn
      (by rintro rfl; simp at hn; omega)]
    congr 2
    apply inter_congr
    intro row hr'
    rw [← joinLoop_inter (hrow row hr').1, List.map_congr_left fun x _ => k_text (fmt := fmt) x]
    simp
  | v rows =>
    simp only [vmatChars, Mat.entries, inter_map, Go.pure_eq, hck, Go.ok_bind]
    rw [List.cons_append, joinLoop_inter rfl]
    congr 2
    apply inter_congr
    intro row hr'
    rw [← joinLoop_inter rfl, List.map_congr_left fun x _ => var_text (fmt := fmt) x]
    simp
  | m rows =>
    have hrow := mrow (f := .mono) rfl
    simp only [mmatChars, Mat.entries, inter_map, Go.pure_eq, hdm, Go.ok_bind]
    rw [mapM_eq _ (f := fun row => List.mapM (Mono.chars fmt) row)
      (g := fun row => List.map (fun x => stext fmt (.mono x)) row) fun row hr' =>
      mapM_eq _ fun x hx => scalar_chars (fmt := fmt) (a := .mono x) ((hrow row hr').2 x hx), Go.ok_bind,
      List.append_assoc, List.map_map, joinLoop_inter rfl]
    congr 2
    apply inter_congr
    intro row hr'
    rw [← joinLoop_inter (hrow row hr').1]
    simp
  | p rows =>
    have hn : rows.length = r := by simpa [Mat.entries] using hl
    have hrow := mrow (f := .poly) rfl
    simp only [pmatChars, Mat.entries, inter_map, Go.pure_eq, hdm, Go.ok_bind]
    rw [mapM_eq _ (f := fun row => List.mapM (Poly.chars fmt) row)
      (g := fun row => List.map (fun x => stext fmt (.poly x)) row) fun row hr' =>
      mapM_eq _ fun x hx => scalar_chars (fmt := fmt) (a := .poly x) ((hrow row hr').2 x hx), Go.ok_bind,
      List.append_assoc, List.map_map, joinLoop_inter hn]
    congr 2
    apply inter_congr
    intro row hr'
    rw [← joinLoop_inter (hrow row hr').1]
    simp

/-- C53: `String` of a well-formed expression does not panic, and its text. -/
theorem expr_chars {e : Expr R} {r c : ℕ} (h : e.Canon) (hs : e.Shape r c) (hr : 0 < r) :
    e.chars fmt = .ok (etext fmt e) := by
  cases e with
  | s a => exact scalar_chars (h [a] (by simp [Expr.grid]) a (by simp))
  | v a => exact vec_chars h hs hr
  | m a => exact mat_chars h hs hr

/-! ## Reading the text -/

/-- The type of an array, read from its text. -/
private def readType : List Char → String
  | '[' :: '[' :: r => if r.getLast? = some '\n' then "KMatrix" else "VariableMatrix"
  | '[' :: _ => "KVector"
  | 'V' :: _ => "VariableVector"
  | 'M' :: r => if r[7]? = some 'V' then "MonomialVector" else "MonomialMatrix"
  | 'P' :: r => if r[9]? = some 'V' then "PolynomialVector" else "PolynomialMatrix"
  | _ => "scalar"

theorem inter_end {α : Type} (sep close : List Char) (E : α → List Char) (l : List α) :
    ∃ u, inter sep close E l = u ++ close := by
  induction l with
  | nil => exact ⟨[], rfl⟩
  | cons a l ih =>
    cases l with
    | nil => exact ⟨_, rfl⟩
    | cons b l =>
      obtain ⟨u, hu⟩ := ih
      exact ⟨E a ++ sep ++ u, by rw [inter, hu, ← List.append_assoc]⟩

theorem inter_start {α : Type} {sep close : List Char} {E : α → List Char} {l : List α} (hl : l ≠ []) :
    ∃ a ∈ l, ∃ u, inter sep close E l = E a ++ u := by
  cases l with
  | nil => exact absurd rfl hl
  | cons a l =>
    cases l with
    | nil => exact ⟨a, by simp, _, rfl⟩
    | cons b l => exact ⟨a, by simp, _, by rw [inter, List.append_assoc]⟩

theorem entry_default {e : Expr R} (h : e.Canon) (hd : e.DefaultNames) :
    ∀ row ∈ e.grid, ∀ x ∈ row, x.Canon ∧ x.DefaultNames :=
  fun row hr x hx => ⟨h row hr x hx, fun v hv => hd v ⟨row, hr, x, hx, hv⟩⟩

private theorem readType_eq (hF : NumFormat fmt) {e : Expr R} {r c : ℕ} (h : e.Canon) (hd : e.DefaultNames)
    (hs : e.Shape r c) (hr : 0 < r) : readType (etext fmt e) = e.typeName := by
  have hP := entry_default h hd
  cases e with
  | s a =>
    obtain ⟨hc, hdn⟩ := hP [a] (by simp [Expr.grid]) a (by simp)
    obtain ⟨x, u, hx, hn⟩ := scalar_head hF hc hdn
    unfold etext
    dsimp only
    rw [hx]
    simp only [List.mem_cons, not_or] at hn
    unfold readType
    split <;> simp_all [Expr.typeName]
  | v a =>
    have hP : ∀ x ∈ a.entries, x.Canon ∧ x.DefaultNames := fun x hx =>
      hP [x] (List.mem_map.mpr ⟨x, hx, rfl⟩) x (by simp)
    have hne : a.entries ≠ [] := by
      intro h0
      have : (a.entries.map fun x => [x]).length = r := hs.1
      rw [h0] at this
      simp at this
      omega
    cases a with
    | k l =>
      obtain ⟨b, hb, u, hu⟩ := inter_start (sep := [',', ' ']) (close := [']']) (E := stext fmt) hne
      obtain ⟨x, w, hx, hn⟩ := scalar_head hF (hP b hb).1 (hP b hb).2
      unfold etext vtext
      dsimp only
      rw [hu, hx]
      simp only [List.mem_cons, not_or] at hn
      simp only [List.cons_append, List.nil_append]
      unfold readType
      split <;> simp_all [Expr.typeName]
    | v l => rfl
    | m l => rfl
    | p l => rfl
  | m a =>
    have hne : a.entries ≠ [] := by
      intro h0
      have : a.entries.length = r := hs.1
      rw [h0] at this
      simp at this
      omega
    cases a with
    | k l =>
      obtain ⟨b, hb, u, hu⟩ := inter_start (sep := [',', '\n', ' ', '[']) (close := [']', '\n'])
        (E := fun row => '[' :: inter [','] [']'] (stext fmt) row) hne
      obtain ⟨w, hw⟩ := inter_end [',', '\n', ' ', '['] [']', '\n']
        (fun row => '[' :: inter [','] [']'] (stext fmt) row) (Mat.k l).entries
      have e1 : etext fmt (.m (.k l)) = '[' :: '[' :: (inter [','] [']'] (stext fmt) b ++ u) := by
        unfold etext matText
        dsimp only
        rw [hu, List.cons_append]
      have e2 : etext fmt (.m (.k l)) = '[' :: (w ++ [']', '\n']) := by
        unfold etext matText
        dsimp only
        rw [hw]
      rw [e1]
      have e3 := (List.cons.inj (e1.symm.trans e2)).2
      have : (inter [','] [']'] (stext fmt) b ++ u).getLast? = some '\n' := by
        have hlen : (inter [','] [']'] (stext fmt) b ++ u) ≠ [] := by
          intro h0
          rw [h0] at e3
          have := congrArg List.length e3
          simp at this
        have h4 : ('[' :: (inter [','] [']'] (stext fmt) b ++ u)).getLast? = some '\n' := by
          rw [e3]; simp
        rwa [List.getLast?_cons_of_ne_nil hlen] at h4
      exact if_pos this
    | v l =>
      obtain ⟨b, hb, u, hu⟩ := inter_start (sep := [',', ' ']) (close := [']'])
        (E := fun row => '[' :: inter [',', ' '] [']'] (stext fmt) row) hne
      obtain ⟨w, hw⟩ := inter_end [',', ' '] [']']
        (fun row => '[' :: inter [',', ' '] [']'] (stext fmt) row) (Mat.v l).entries
      have e1 : etext fmt (.m (.v l)) = '[' :: '[' :: (inter [',', ' '] [']'] (stext fmt) b ++ u) := by
        unfold etext matText
        dsimp only
        rw [hu, List.cons_append]
      have e2 : etext fmt (.m (.v l)) = '[' :: (w ++ [']']) := by
        unfold etext matText
        dsimp only
        rw [hw]
      rw [e1]
      have e3 := (List.cons.inj (e1.symm.trans e2)).2
      have : ¬ (inter [',', ' '] [']'] (stext fmt) b ++ u).getLast? = some '\n' := by
        intro h0
        have hlen : (inter [',', ' '] [']'] (stext fmt) b ++ u) ≠ [] := by
          intro h1; rw [h1] at h0; cases h0
        have h4 : ('[' :: (inter [',', ' '] [']'] (stext fmt) b ++ u)).getLast? = some '\n' := by
          rw [List.getLast?_cons_of_ne_nil hlen]; exact h0
        rw [e3] at h4
        simp at h4
      exact if_neg this
    | m l => rfl
    | p l => rfl

private theorem row_inj (hF : NumFormat fmt) {sep close : List Char} {l k : List (Scalar R)}
    (hl : ∀ x ∈ l, x.Canon ∧ x.DefaultNames) (hk : ∀ x ∈ k, x.Canon ∧ x.DefaultNames) {s t : List Char}
    (h : inter (',' :: sep) (']' :: close) (stext fmt) l ++ s =
      inter (',' :: sep) (']' :: close) (stext fmt) k ++ t) :
    List.Forall₂ (fun x y => Scalar.written x = Scalar.written y) l k ∧ s = t := by
  refine inter_inj (P := fun x : Scalar R => x.Canon ∧ x.DefaultNames) (by decide) ?_ ?_ hl hk h
  · intro a b s t ha hb hs ht ns nt h
    have st : ∀ {s : List Char}, (∀ x ∈ s.head?, x = ',' ∨ x = ']') → s ≠ [] → Stop2 s := by
      intro s hs ns
      cases s with
      | nil => exact absurd rfl ns
      | cons x s =>
        rcases hs x (by simp) with rfl | rfl
        · exact .inr (.inl ⟨s, rfl⟩)
        · exact .inr (.inr (.inl ⟨s, rfl⟩))
    exact scalar_inj hF ha.1 hb.1 ha.2 hb.2 (st hs ns) (st ht nt) h
  · intro a ha
    obtain ⟨x, r, h1, h2⟩ := scalar_head hF ha.1 ha.2
    exact ⟨x, r, h1, fun hx => h2 (by simp [hx])⟩

private theorem mat_inj (hF : NumFormat fmt) {sep close sep' close' op : List Char} {cc : Char}
    (hcc : ',' ≠ cc) (hop : '[' ≠ cc) {l k : List (List (Scalar R))}
    (hl : ∀ row ∈ l, ∀ x ∈ row, x.Canon ∧ x.DefaultNames)
    (hk : ∀ row ∈ k, ∀ x ∈ row, x.Canon ∧ x.DefaultNames)
    (h : inter (',' :: sep') (cc :: close')
        (fun row => '[' :: (op ++ inter (',' :: sep) (']' :: close) (stext fmt) row)) l =
      inter (',' :: sep') (cc :: close')
        (fun row => '[' :: (op ++ inter (',' :: sep) (']' :: close) (stext fmt) row)) k) :
    List.Forall₂ (List.Forall₂ fun x y => Scalar.written x = Scalar.written y) l k := by
  refine (inter_inj (P := fun row : List (Scalar R) => ∀ x ∈ row, x.Canon ∧ x.DefaultNames)
    (Q := List.Forall₂ fun x y => Scalar.written x = Scalar.written y) hcc ?_ ?_ hl hk
    (s := []) (t := []) (by rw [h])).1
  · intro a b s t ha hb _ _ _ _ h
    rw [List.cons_append, List.cons_append, List.append_assoc, List.append_assoc] at h
    exact row_inj hF ha hb (List.append_cancel_left (List.cons.inj h).2)
  · intro a _
    exact ⟨_, _, rfl, hop⟩

private theorem etext_inj (hF : NumFormat fmt) {a b : Expr R} (ha : ∀ row ∈ a.grid, ∀ x ∈ row,
    x.Canon ∧ x.DefaultNames) (hb : ∀ row ∈ b.grid, ∀ x ∈ row, x.Canon ∧ x.DefaultNames)
    (ht : a.typeName = b.typeName) (h : etext fmt a = etext fmt b) : a.SameWritten b := by
  have vec : ∀ {l k : List (Scalar R)} (_ : ∀ row ∈ l.map (fun x => [x]), ∀ x ∈ row, x.Canon ∧ x.DefaultNames)
      (_ : ∀ row ∈ k.map (fun x => [x]), ∀ x ∈ row, x.Canon ∧ x.DefaultNames)
      (_ : inter [',', ' '] [']'] (stext fmt) l = inter [',', ' '] [']'] (stext fmt) k),
      List.Forall₂ (List.Forall₂ fun x y => Scalar.written x = Scalar.written y) (l.map fun x => [x])
        (k.map fun x => [x]) := by
    intro l k hl hk h
    have := (row_inj hF (fun x hx => hl [x] (List.mem_map.mpr ⟨x, hx, rfl⟩) x (by simp))
      (fun x hx => hk [x] (List.mem_map.mpr ⟨x, hx, rfl⟩) x (by simp)) (s := []) (t := []) (by rw [h])).1
    rw [List.forall₂_map_left_iff, List.forall₂_map_right_iff]
    exact this.imp fun x y h => .cons h .nil
  unfold Expr.SameWritten
  cases a with
  | s a =>
    cases b with
    | s b =>
      obtain ⟨h1, h2⟩ := ha [a] (by simp [Expr.grid]) a (by simp)
      obtain ⟨h3, h4⟩ := hb [b] (by simp [Expr.grid]) b (by simp)
      exact .cons (.cons (scalar_inj hF h1 h3 h2 h4 (.inl rfl) (.inl rfl)
        (by rw [show stext fmt a = stext fmt b from h])).1 .nil) .nil
    | v b => cases b <;> simp [Expr.typeName] at ht
    | m b => cases b <;> simp [Expr.typeName] at ht
  | v a =>
    cases b with
    | s b => cases a <;> simp [Expr.typeName] at ht
    | v b =>
      cases a <;> cases b <;> first
        | (exfalso; simp [Expr.typeName] at ht; done)
        | exact vec ha hb (List.append_cancel_left h)
    | m b => cases a <;> cases b <;> simp [Expr.typeName] at ht
  | m a =>
    cases b with
    | s b => cases a <;> simp [Expr.typeName] at ht
    | v b => cases a <;> cases b <;> simp [Expr.typeName] at ht
    | m b =>
      cases a <;> cases b <;> first
        | (exfalso; simp [Expr.typeName] at ht; done)
        | exact mat_inj hF (op := []) (by decide) (by decide) ha hb (List.cons.inj h).2
        | exact mat_inj hF (op := [' ']) (by decide) (by decide) ha hb (List.append_cancel_left h)
        | exact mat_inj hF (op := []) (by decide) (by decide) ha hb (List.append_cancel_left h)

/-- C53: if two well-formed expressions over variables with default names have the same text, they have
the same type (scalars aside) and the same shape, and in every entry the same terms are written. -/
theorem string_written_partial (hF : NumFormat fmt) {a b : Expr R} {r c r' c' : ℕ} (ha : a.Canon) (hb : b.Canon)
    (da : a.DefaultNames) (db : b.DefaultNames) (sa : a.Shape r c) (sb : b.Shape r' c') (hr : 0 < r)
    (hr' : 0 < r') (h : a.chars fmt = b.chars fmt) : a.typeName = b.typeName ∧ a.SameWritten b := by
  rw [expr_chars ha sa hr, expr_chars hb sb hr'] at h
  have h := Except.ok.inj h
  have ht : a.typeName = b.typeName := by
    rw [← readType_eq hF ha da sa hr, ← readType_eq hF hb db sb hr', h]
  exact ⟨ht, etext_inj hF (entry_default ha da) (entry_default hb db) ht h⟩

/-- C53: ... and the same polynomials are denoted. -/
theorem string_den_partial (hF : NumFormat fmt) {a b : Expr R} {r c r' c' : ℕ} (ha : a.Canon) (hb : b.Canon)
    (da : a.DefaultNames) (db : b.DefaultNames) (sa : a.Shape r c) (sb : b.Shape r' c') (hr : 0 < r)
    (hr' : 0 < r') (h : a.chars fmt = b.chars fmt) : a.denGrid = b.denGrid := by
  have h2 := (string_written_partial hF ha hb da db sa sb hr hr' h).2
  unfold Expr.SameWritten at h2
  unfold Expr.denGrid
  rw [← List.forall₂_eq_eq_eq, List.forall₂_map_left_iff, List.forall₂_map_right_iff]
  refine h2.imp fun x y hxy => ?_
  rw [← List.forall₂_eq_eq_eq, List.forall₂_map_left_iff, List.forall₂_map_right_iff]
  exact hxy.imp fun x y h => written_den h

/-- C53: scalars, in both directions. -/
theorem scalar_string_iff (hF : NumFormat fmt) {a b : Scalar R} (ha : a.Canon) (hb : b.Canon)
    (da : a.DefaultNames) (db : b.DefaultNames) :
    a.chars fmt = b.chars fmt ↔ a.written = b.written := by
  rw [scalar_chars ha, scalar_chars hb]
  constructor
  · intro h
    exact (scalar_inj hF ha hb da db (.inl rfl) (.inl rfl)
      (by rw [List.append_nil, List.append_nil]; exact Except.ok.inj h)).1
  · intro h
    rw [written_toPoly, written_toPoly] at h
    congr 1
    unfold stext
    have hm := (scalar_terms ha da).2
    have hk := (scalar_terms hb db).2
    have fac : ∀ {vs ws : List (Var R)} {es : List ℤ}, (∀ v ∈ vs, v.Default) → (∀ v ∈ ws, v.Default) →
        vs.map (·.id) = ws.map (·.id) → factorChars vs es = factorChars ws es := by
      intro vs
      induction vs with
      | nil =>
        intro ws es _ _ h
        have : ws = [] := by simpa using h.symm
        rw [this]
      | cons v vs ih =>
        intro ws es d1 d2 h
        cases ws with
        | nil => simp at h
        | cons w ws =>
          simp only [List.map_cons, List.cons.injEq] at h
          cases es with
          | nil => rw [factorChars.eq_2 _ _ (by simp), factorChars.eq_2 _ _ (by simp)]
          | cons e es =>
            rw [factorChars, factorChars, ih (fun v hv => d1 v (by simp [hv])) (fun v hv => d2 v (by simp [hv])) h.2,
              (d1 v (by simp)).toList, (d2 w (by simp)).toList, h.1]
    have mon : ∀ {m r : Mono R} (g : R → R), m.Default → r.Default → m.key = r.key →
        mtext fmt { m with coeff := g m.coeff } = mtext fmt { r with coeff := g r.coeff } := by
      intro m r g d1 d2 h
      simp only [Mono.key, Prod.mk.injEq] at h
      have hv : (m.vars = []) = (r.vars = []) := by
        rw [← List.map_eq_nil_iff (f := (·.id)), h.2.1, List.map_eq_nil_iff]
      unfold mtext
      simp only [hv, h.1, h.2.2, fac d1 d2 h.2.1]
    have tail : ∀ {l k : List (Mono R)}, (∀ m ∈ l, m.Default) → (∀ m ∈ k, m.Default) →
        l.map Mono.key = k.map Mono.key → ttext fmt l = ttext fmt k := by
      intro l
      induction l with
      | nil =>
        intro k _ _ h
        have : k = [] := by simpa using h.symm
        rw [this]
      | cons m l ih =>
        intro k d1 d2 h
        cases k with
        | nil => simp at h
        | cons r k =>
          simp only [List.map_cons, List.cons.injEq] at h
          have hc : m.coeff = r.coeff := congrArg Prod.fst h.1
          rw [ttext, ttext, ih (fun v hv => d1 v (by simp [hv])) (fun v hv => d2 v (by simp [hv])) h.2,
            mon (fun c => |c|) (d1 m (by simp)) (d2 r (by simp)) h.1, hc]
    generalize a.toPoly.monos = l at h hm
    generalize b.toPoly.monos = k at h hk
    cases l with
    | nil =>
      have : k = [] := by simpa using h.symm
      rw [this]
    | cons m l =>
      cases k with
      | nil => simp at h
      | cons r k =>
        simp only [List.map_cons, List.cons.injEq] at h
        rw [ltext, ltext, show mtext fmt m = mtext fmt r from mon id (hm m (by simp)).2 (hk r (by simp)).2 h.1,
          tail (fun v hv => (hm v (by simp [hv])).2) (fun v hv => (hk v (by simp [hv])).2) h.2]

/-! ## Constraints -/

private theorem scalar_check {a : Scalar R} (h : a.Canon) : a.check = .ok () :=
  Expr.check_ok (e := .s a) (r := 1) (k := 1) (by simpa [Expr.Canon, Expr.All, Expr.grid] using h)
    ⟨rfl, by simp [Expr.grid]⟩ (by omega)

/-- C53: the text of a scalar constraint determines the sense and the terms on both sides. -/
theorem constraint_string_partial (hF : NumFormat fmt) {a b : SCon R} (ha : a.Canon) (hb : b.Canon)
    (da : a.lhs.DefaultNames ∧ a.rhs.DefaultNames) (db : b.lhs.DefaultNames ∧ b.rhs.DefaultNames) :
    (∃ s, a.chars fmt = .ok s) ∧
    (a.chars fmt = b.chars fmt →
      a.sense = b.sense ∧ a.lhs.written = b.lhs.written ∧ a.rhs.written = b.rhs.written) := by
  have tx : ∀ {a : SCon R}, a.Canon → ∃ x u, a.sense.chars = .ok (x :: u) ∧ x ∉ ['x', '+', '-'] ∧
      a.chars fmt = .ok (stext fmt a.lhs ++ ' ' :: x :: (u ++ ' ' :: stext fmt a.rhs)) := by
    intro a ha
    have hck : a.check = .ok () := by
      unfold SCon.check
      rw [scalar_check ha.lhs, Go.ok_bind, scalar_check ha.rhs, Go.ok_bind]
      rcases ha.sense with h | h | h <;> rw [h] <;> rfl
    have hs : ∃ x u, a.sense.chars = .ok (x :: u) ∧ x ∉ ['x', '+', '-'] := by
      rcases ha.sense with h | h | h <;> rw [h]
      · exact ⟨_, _, rfl, by decide⟩
      · exact ⟨_, _, rfl, by decide⟩
      · exact ⟨_, _, rfl, by decide⟩
    obtain ⟨x, u, h1, h2⟩ := hs
    refine ⟨x, u, h1, h2, ?_⟩
    unfold SCon.chars
    rw [hck, Go.ok_bind, scalar_chars ha.lhs, Go.ok_bind, h1, Go.ok_bind, scalar_chars ha.rhs, Go.ok_bind,
      Go.pure_eq]
    simp
  obtain ⟨x, u, hx, hx', hxa⟩ := tx ha
  obtain ⟨y, w, hy, hy', hyb⟩ := tx hb
  refine ⟨⟨_, hxa⟩, fun h => ?_⟩
  rw [hxa, hyb] at h
  obtain ⟨k1, k2⟩ := scalar_inj hF ha.lhs hb.lhs da.1 db.1 (.inr (.inr (.inr ⟨_, _, rfl, hx'⟩)))
    (.inr (.inr (.inr ⟨_, _, rfl, hy'⟩))) (Except.ok.inj h)
  have key : a.sense = b.sense ∧ stext fmt a.rhs = stext fmt b.rhs := by
    rcases ha.sense with h1 | h1 | h1 <;> rcases hb.sense with h2 | h2 | h2 <;> rw [h1] at hx ⊢ <;>
      rw [h2] at hy ⊢ <;> cases hx <;> cases hy <;> simp_all
  exact ⟨key.1, k1, (scalar_inj hF ha.rhs hb.rhs da.2 db.2 (.inl rfl) (.inl rfl) (by rw [key.2])).1⟩

/-! ## Brackets -/

theorem scalar_noBracket (hF : NumFormat fmt) {a : Scalar R} (ha : a.Canon) (da : a.DefaultNames) :
    ∀ x ∈ stext fmt a, x ≠ '[' ∧ x ≠ ']' := by
  have num : ∀ c, ∀ x ∈ fmt c, x ≠ '[' ∧ x ≠ ']' := fun c x hx =>
    ⟨fun h => hF.chars c x hx (by simp [h]), fun h => hF.chars c x hx (by simp [h])⟩
  have int : ∀ {x}, isIntChar x = true → x ≠ '[' ∧ x ≠ ']' := by
    intro x hx
    constructor <;> rintro rfl <;> cases hx
  have fac : ∀ {vs : List (Var R)} {es : List ℤ}, (∀ v ∈ vs, v.Default) →
      ∀ x ∈ factorChars vs es, x ≠ '[' ∧ x ≠ ']' := by
    intro vs
    induction vs with
    | nil => intro es _ x hx; rw [factorChars.eq_2 _ _ (by simp)] at hx; cases hx
    | cons v vs ih =>
      intro es d x hx
      cases es with
      | nil => rw [factorChars.eq_2 _ _ (by simp)] at hx; cases hx
      | cons e es =>
        rw [factorChars, (d v (by simp)).toList] at hx
        simp only [List.mem_append, List.mem_cons] at hx
        rcases hx with ((rfl | rfl | hx) | hx) | hx
        · decide
        · decide
        · exact int (by unfold isIntChar; rw [toDigits_digit hx]; rfl)
        · split at hx
          · rcases List.mem_cons.mp hx with rfl | hx
            · decide
            · exact int (intChars_all hx)
          · cases hx
        · exact ih (fun v hv => d v (by simp [hv])) x hx
  have mon : ∀ {m : Mono R}, m.Default → ∀ x ∈ mtext fmt m, x ≠ '[' ∧ x ≠ ']' := by
    intro m d x hx
    unfold mtext at hx
    split at hx
    · exact num _ x hx
    · split at hx
      · exact fac d x hx
      · simp only [List.mem_append, List.mem_cons] at hx
        rcases hx with hx | rfl | hx
        · exact num _ x hx
        · decide
        · exact fac d x hx
  have tail : ∀ {l : List (Mono R)}, (∀ m ∈ l, m.Default) → ∀ x ∈ ttext fmt l, x ≠ '[' ∧ x ≠ ']' := by
    intro l
    induction l with
    | nil => intro _ x hx; cases hx
    | cons m l ih =>
      intro d x hx
      rw [ttext] at hx
      simp only [List.mem_append, List.mem_cons] at hx
      rcases hx with rfl | rfl | rfl | hx | hx
      · decide
      · split <;> decide
      · decide
      · exact mon (m := { m with coeff := |m.coeff| }) (d m (by simp)) x hx
      · exact ih (fun v hv => d v (by simp [hv])) x hx
  have hm := (scalar_terms ha da).2
  unfold stext
  intro x hx
  cases hl : a.toPoly.monos with
  | nil => rw [hl] at hx; cases hx
  | cons m l =>
    rw [hl] at hx hm
    rw [ltext] at hx
    rcases List.mem_append.mp hx with hx | hx
    · exact mon (hm m (by simp)).2 x hx
    · exact tail (fun v hv => (hm v (by simp [hv])).2) x hx

theorem inter_count {α : Type} {sep close : List Char} {E : α → List Char} {l : List α} {ch : Char} {n : ℕ}
    (h : ∀ a ∈ l, (E a).count ch = n) : (inter sep close E l).count ch =
      l.length * n + (l.length - 1) * sep.count ch + close.count ch := by
  induction l with
  | nil => simp [inter]
  | cons a l ih =>
    cases l with
    | nil => simp [inter, h a (by simp)]
    | cons b l =>
      rw [inter, List.count_append, List.count_append, ih fun x hx => h x (by simp [hx]), h a (by simp)]
      simp only [List.length_cons, Nat.add_sub_cancel]
      ring

/-- C53: brackets match in the text of every expression except matrices of constants, where every row
after the first opens one bracket too many. -/
theorem string_brackets_partial (hF : NumFormat fmt) {e : Expr R} {r c : ℕ} (h : e.Canon) (hd : e.DefaultNames)
    (hs : e.Shape r c) (hr : 0 < r) : ∃ s, e.chars fmt = .ok s ∧
      s.count '[' = s.count ']' + (if e.typeName = "KMatrix" then r - 1 else 0) := by
  refine ⟨_, expr_chars h hs hr, ?_⟩
  have hP := entry_default h hd
  have hz : ∀ {x : Scalar R}, x.Canon ∧ x.DefaultNames → ∀ ch, (ch = '[' ∨ ch = ']') →
      (stext fmt x).count ch = 0 := by
    intro x hx ch hch
    rw [List.count_eq_zero]
    intro hm
    have := scalar_noBracket hF hx.1 hx.2 ch hm
    rcases hch with rfl | rfl
    · exact this.1 rfl
    · exact this.2 rfl
  have row : ∀ {l : List (Scalar R)} {sep close : List Char} {ch : Char}, (ch = '[' ∨ ch = ']') →
      (∀ x ∈ l, x.Canon ∧ x.DefaultNames) → sep.count ch = 0 →
      (inter sep close (stext fmt) l).count ch = close.count ch := by
    intro l sep close ch hch hl hsep
    rw [inter_count fun x hx => hz (hl x hx) ch hch, hsep]
    simp
  have mat : ∀ {l : List (List (Scalar R))} {sep close sep' close' op : List Char} {ch : Char},
      (ch = '[' ∨ ch = ']') → (∀ row ∈ l, ∀ x ∈ row, x.Canon ∧ x.DefaultNames) → sep.count ch = 0 →
      (inter sep' close' (fun row => op ++ inter sep close (stext fmt) row) l).count ch =
        l.length * (op.count ch + close.count ch) + (l.length - 1) * sep'.count ch + close'.count ch := by
    intro l sep close sep' close' op ch hch hl hsep
    rw [inter_count fun r' hr' => by rw [List.count_append, row hch (hl r' hr') hsep]]
  cases e with
  | s a =>
    have := hP [a] (by simp [Expr.grid]) a (by simp)
    unfold etext
    dsimp only
    rw [hz this _ (.inl rfl), hz this _ (.inr rfl)]
    rfl
  | v a =>
    have hP : ∀ x ∈ a.entries, x.Canon ∧ x.DefaultNames := fun x hx =>
      hP [x] (List.mem_map.mpr ⟨x, hx, rfl⟩) x (by simp)
    unfold etext vtext
    dsimp only
    rw [List.count_append, List.count_append, row (.inl rfl) hP (by decide), row (.inr rfl) hP (by decide)]
    cases a <;> (rw [if_neg (by simp [Expr.typeName])]; dsimp only; decide)
  | m a =>
    have hP : ∀ row ∈ a.entries, ∀ x ∈ row, x.Canon ∧ x.DefaultNames := hP
    have hl : a.entries.length = r := hs.1
    unfold etext matText
    dsimp only
    cases a with
    | k l =>
      have e1 := mat (sep' := [',', '\n', ' ', '[']) (close' := [']', '\n']) (op := ['[']) (sep := [','])
        (close := [']']) (.inl rfl) hP (by decide)
      have e2 := mat (sep' := [',', '\n', ' ', '[']) (close' := [']', '\n']) (op := ['[']) (sep := [','])
        (close := [']']) (.inr rfl) hP (by decide)
      simp only [List.singleton_append] at e1 e2
      dsimp only
      rw [List.count_cons, List.count_cons, e1, e2, hl]
      simp [Expr.typeName]
      omega
    | v l =>
      have e1 := mat (sep' := [',', ' ']) (close' := [']']) (op := ['[']) (sep := [',', ' '])
        (close := [']']) (.inl rfl) hP (by decide)
      have e2 := mat (sep' := [',', ' ']) (close' := [']']) (op := ['[']) (sep := [',', ' '])
        (close := [']']) (.inr rfl) hP (by decide)
      simp only [List.singleton_append] at e1 e2
      dsimp only
      rw [List.count_cons, List.count_cons, e1, e2, hl]
      simp [Expr.typeName]
    | m l =>
      have e1 := mat (sep' := [',', '\n', ' ']) (close' := [' ', ']']) (op := ['[', ' ']) (sep := [',', ' '])
        (close := [']', ',']) (.inl rfl) hP (by decide)
      have e2 := mat (sep' := [',', '\n', ' ']) (close' := [' ', ']']) (op := ['[', ' ']) (sep := [',', ' '])
        (close := [']', ',']) (.inr rfl) hP (by decide)
      simp only [List.cons_append, List.nil_append] at e1 e2
      dsimp only
      rw [List.count_append, List.count_append, e1, e2, hl,
        show "MonomialMatrix =\n[ ".toList.count '[' = 1 by decide,
        show "MonomialMatrix =\n[ ".toList.count ']' = 0 by decide]
      simp [Expr.typeName]
      omega
    | p l =>
      have e1 := mat (sep' := [',', '\n']) (close' := [']']) (op := ['[']) (sep := [',', ' '])
        (close := [']']) (.inl rfl) hP (by decide)
      have e2 := mat (sep' := [',', '\n']) (close' := [']']) (op := ['[']) (sep := [',', ' '])
        (close := [']']) (.inr rfl) hP (by decide)
      simp only [List.singleton_append] at e1 e2
      dsimp only
      rw [List.count_append, List.count_append, e1, e2, hl,
        show "PolynomialMatrix =\n[".toList.count '[' = 1 by decide,
        show "PolynomialMatrix =\n[".toList.count ']' = 0 by decide]
      simp [Expr.typeName]
      omega

end

/-! ## Witnesses -/

/-- A format of rational numbers: numerator, slash, denominator. -/
def ratChars (q : ℚ) : List Char := intChars q.num ++ '/' :: Nat.toDigits 10 q.den

theorem ratChars_format : NumFormat ratChars where
  inj := by
    intro p q h
    unfold ratChars at h
    obtain ⟨h1, h2⟩ := run_eq (p := isIntChar) (fun a ha => intChars_all ha) (fun a ha => intChars_all ha)
      (by intro a ha; simp at ha; subst ha; rfl) (by intro a ha; simp at ha; subst ha; rfl) h
    exact Rat.ext (intChars_inj h1) (toDigits_inj (List.cons.inj h2).2)
  ne := by intro c; simp [ratChars]
  chars := by
    intro c a ha
    unfold ratChars at ha
    have : isIntChar a = true ∨ a = '/' := by
      rcases List.mem_append.mp ha with h | h
      · exact .inl (intChars_all h)
      · rcases List.mem_cons.mp h with h | h
        · exact .inr h
        · exact .inl (by unfold isIntChar; rw [toDigits_digit h]; rfl)
    intro hm
    simp only [List.mem_cons, List.not_mem_nil, or_false] at hm
    rcases hm with rfl | rfl | rfl | rfl | rfl | rfl | rfl | rfl <;> rcases this with h | h <;> cases h

/-- A variable with its default name. -/
def dv (i : ℕ) : Var ℚ := ⟨i, 0, 1, 67, s!"x_{i}", 0⟩

theorem dv_ok (i : ℕ) : (dv i).OK := by
  show decide ((1 : ℚ) ≤ 0) = false
  simp

/-- `3 x_0^2 x_11 - x_1 + 5` -/
def dp : Poly ℚ := ⟨[⟨3, [2, 1], [dv 0, dv 11]⟩, ⟨-1, [1], [dv 1]⟩, ⟨5, [], []⟩]⟩

theorem dp_canon : dp.Canon := by
  refine ⟨by decide, ?_⟩
  intro m hm
  simp only [dp, List.mem_cons, List.not_mem_nil, or_false] at hm
  rcases hm with rfl | rfl | rfl
  · exact ⟨rfl, by decide, by decide, by simp [dv_ok]⟩
  · exact ⟨rfl, by decide, by decide, by simp [dv_ok]⟩
  · exact ⟨rfl, by simp, by simp, by simp⟩

theorem dp_default : Scalar.DefaultNames (.poly dp) := by
  rintro v ⟨m, hm, hv⟩
  simp only [dp, List.mem_cons, List.not_mem_nil, or_false] at hm
  rcases hm with rfl | rfl | rfl <;> simp only [List.mem_cons, List.not_mem_nil, or_false] at hv
  · rcases hv with rfl | rfl <;> rfl
  · subst hv; rfl

/-- The hypotheses of `string_written_partial` and `string_brackets_partial` hold for a matrix. -/
example : NumFormat ratChars ∧ (Expr.m (.p [[dp, dp], [dp, dp]])).Canon ∧
    (Expr.m (.p [[dp, dp], [dp, dp]])).DefaultNames ∧ (Expr.m (.p [[dp, dp], [dp, dp]])).Shape 2 2 := by
  refine ⟨ratChars_format, ?_, ?_, rfl, by simp [Expr.grid, Mat.entries]⟩
  · simp [Expr.Canon, Expr.All, Expr.grid, Mat.entries, Scalar.Canon, dp_canon]
  · rintro v ⟨row, hr, x, hx, hv⟩
    have : x = .poly dp := by
      simp only [Expr.grid, Mat.entries, List.map_cons, List.map_nil, List.mem_cons, List.not_mem_nil,
        or_false, or_self] at hr
      rw [hr] at hx
      simpa using hx
    rw [this] at hv
    exact dp_default v hv

/-- What is printed. -/
example : (Scalar.poly dp).chars ratChars = .ok "3/1 x_0^2x_11 - x_1 + 5/1".toList := by decide +kernel

example : (SCon.mk (.poly dp) (.k 2) .le).Canon ∧
    (SCon.mk (.poly dp) (.k 2) .le).chars ratChars = .ok "3/1 x_0^2x_11 - x_1 + 5/1 <= 2/1".toList :=
  ⟨⟨dp_canon, trivial, .inr (.inl rfl)⟩, by decide +kernel⟩

/-- C53 is false for names chosen by the client, even when they are all different: with variables named
`a`, `b` and `ab`, the product of the first two and the third have the same text. -/
theorem string_names_false : ∃ (a b ab : Var ℚ), a.OK ∧ b.OK ∧ ab.OK ∧
    (a.name ≠ b.name ∧ a.name ≠ ab.name ∧ b.name ≠ ab.name) ∧ (a.id ≠ b.id ∧ a.id ≠ ab.id ∧ b.id ≠ ab.id) ∧
    (Scalar.mono ⟨1, [1, 1], [a, b]⟩).chars ratChars = (Scalar.var ab).chars ratChars ∧
    (Scalar.mono ⟨1, [1, 1], [a, b]⟩ : Scalar ℚ).den ≠ (Scalar.var ab : Scalar ℚ).den := by
  have ok : ∀ i s, Var.OK (R := ℚ) ⟨i, 0, 1, 67, s, 0⟩ := by
    intro i s
    show decide ((1 : ℚ) ≤ 0) = false
    simp
  refine ⟨⟨0, 0, 1, 67, "a", 0⟩, ⟨1, 0, 1, 67, "b", 0⟩, ⟨2, 0, 1, 67, "ab", 0⟩, ok _ _, ok _ _, ok _ _,
    by decide, by decide, by decide +kernel, ?_⟩
  intro h
  have := congrArg (MvPolynomial.eval (fun i => if i = 2 then (1 : ℚ) else 0)) h
  simp [Scalar.den, Mono.den_eq_prod] at this

/-- C53 is false for matrices of constants: the text of a 2 by 2 matrix opens four
brackets and closes three. -/
theorem string_kmatrix_brackets_false :
    (Expr.m (.k [[1, 2], [3, 4]]) : Expr ℚ).chars ratChars = .ok "[[1/1,2/1],\n [[3/1,4/1]]\n".toList ∧
    "[[1/1,2/1],\n [[3/1,4/1]]\n".toList.count '[' ≠ "[[1/1,2/1],\n [[3/1,4/1]]\n".toList.count ']' := by
  decide +kernel

/-- Between the rows of a matrix of monomials there are two commas. -/
theorem string_mmatrix_commas_false :
    (Expr.m (.m [[⟨2, [1], [dv 0]⟩], [⟨3, [2], [dv 1]⟩]]) : Expr ℚ).chars ratChars =
      .ok "MonomialMatrix =\n[ [ 2/1 x_0],,\n [ 3/1 x_1^2], ]".toList := by
  decide +kernel

end Verif
