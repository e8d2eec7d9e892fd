import Verif.Lemmas.HomCon
import Verif.Model.Text

/-!
# Maps between number types: the `String` methods

A text under the format `fmt ∘ f` is the text of the mapped expression under `fmt`.
-/

namespace Verif

set_option linter.unusedSimpArgs false

variable {R S : Type}

namespace NumHom

variable [GoNum R] [GoNum S] (h : NumHom R S) (fmt : S → List Char)

theorem absVal (c : R) : Verif.absVal (h.f c) = h.f (Verif.absVal c) := by
  simp only [Verif.absVal, ← h.zero, h.lt, h.feq, ← h.neg]
  split
  · rfl
  · split <;> rfl

variable {h} in
theorem Names.name (hn : h.Names) (v : Var R) : (v.mapNum h.f).name = v.name := hn v

theorem factorChars (hn : h.Names) (vs : List (Var R)) (es : List Int) :
    Verif.factorChars (vs.map (Var.mapNum h.f)) es = Verif.factorChars vs es := by
  induction vs generalizing es with
  | nil => rfl
  | cons v vs ih =>
    cases es with
    | nil => rfl
    | cons e es => simp only [List.map_cons, Verif.factorChars, ih, hn.name]

theorem mono_chars (hn : h.Names) (m : Mono R) : (m.mapNum h.f).chars fmt = m.chars (fun c => fmt (h.f c)) := by
  simp only [Mono.chars, h.mono_check, Mono.mapNum_coeff, Mono.mapNum_vars, Mono.mapNum_exps, h.factorChars hn,
    List.map_eq_nil_iff, ne_eq, ← h.one, h.feq]

theorem tailChars (hn : h.Names) (l : List (Mono R)) :
    Verif.tailChars fmt (l.map (Mono.mapNum h.f)) = Verif.tailChars (fun c => fmt (h.f c)) l := by
  induction l with
  | nil => rfl
  | cons m l ih =>
    have := h.mono_chars fmt hn { m with coeff := Verif.absVal m.coeff }
    simp only [Mono.mapNum, ← h.absVal] at this
    simp only [List.map_cons, Verif.tailChars, ih, Mono.mapNum, this, ← h.zero, h.le]

theorem poly_chars (hn : h.Names) (p : Poly R) : (p.mapNum h.f).chars fmt = p.chars (fun c => fmt (h.f c)) := by
  obtain ⟨l⟩ := p
  unfold Poly.chars
  rw [h.poly_check]
  cases l with
  | nil => rfl
  | cons m l => simp only [Poly.mapNum, List.map_cons, h.mono_chars fmt hn, h.tailChars fmt hn]

theorem scalar_chars (hn : h.Names) (a : Scalar R) : (a.mapNum h.f).chars fmt = a.chars (fun c => fmt (h.f c)) := by
  cases a
  · rfl
  · simp only [Scalar.mapNum_var, Scalar.chars, hn.name]
  · exact h.mono_chars fmt hn _
  · exact h.poly_chars fmt hn _

theorem vec_chars (hn : h.Names) (a : Vec R) : (a.mapNum h.f).chars fmt = a.chars (fun c => fmt (h.f c)) := by
  cases a with
  | k l => simp [Vec.chars, Function.comp_def]
  | v l =>
    have := h.vec_check (.v l)
    simp only [Vec.mapNum_v] at this
    simp only [Vec.mapNum_v, Vec.chars, this, List.length_map, List.map_map, Function.comp_def, hn.name]
  | m l =>
    have := h.vec_check (.m l)
    simp only [Vec.mapNum_m] at this
    simp only [Vec.mapNum_m, Vec.chars, this, List.length_map, List.mapM_map, Function.comp_def, h.mono_chars fmt hn]
  | p l =>
    have := h.vec_check (.p l)
    simp only [Vec.mapNum_p] at this
    simp only [Vec.mapNum_p, Vec.chars, this, List.length_map, List.mapM_map, Function.comp_def, h.poly_chars fmt hn]

theorem mat_chars (hn : h.Names) (a : Mat R) : (a.mapNum h.f).chars fmt = a.chars (fun c => fmt (h.f c)) := by
  cases a with
  | k l =>
    have := h.mat_dims (.k l)
    simp only [Mat.mapNum_k] at this
    simp only [Mat.mapNum_k, Mat.chars, kmatChars, this, zipIdx_hom, List.flatMap_map, Prod.map, List.map_map,
      Function.comp_def, id]
  | v l =>
    have := h.mat_check (.v l)
    simp only [Mat.mapNum_v] at this
    simp only [Mat.mapNum_v, Mat.chars, vmatChars, this, List.length_map, List.map_map, Function.comp_def, hn.name]
  | m l =>
    have := h.mat_dims (.m l)
    simp only [Mat.mapNum_m] at this
    simp only [Mat.mapNum_m, Mat.chars, mmatChars, this, List.length_map, List.mapM_map, Function.comp_def,
      h.mono_chars fmt hn]
  | p l =>
    have := h.mat_dims (.p l)
    simp only [Mat.mapNum_p] at this
    simp only [Mat.mapNum_p, Mat.chars, pmatChars, this, List.length_map, List.mapM_map, Function.comp_def,
      h.poly_chars fmt hn]

theorem expr_chars (hn : h.Names) (e : Expr R) : (e.mapNum h.f).chars fmt = e.chars (fun c => fmt (h.f c)) := by
  cases e
  · exact h.scalar_chars fmt hn _
  · exact h.vec_chars fmt hn _
  · exact h.mat_chars fmt hn _

theorem scon_chars (hn : h.Names) (c : SCon R) : (c.mapNum h.f).chars fmt = c.chars (fun c => fmt (h.f c)) := by
  unfold SCon.chars
  rw [h.scon_check]
  simp only [SCon.mapNum, h.scalar_chars fmt hn]

end NumHom

end Verif
