import Verif.Lemmas.NormalForm
import Verif.Lemmas.Families

/-!
# Derivatives of monomials
-/

set_option linter.unusedSectionVars false

namespace Verif

open MvPolynomial

variable {R : Type}

section Struct
variable [GoNum R]

theorem mem_of_mem_modify {α : Type} {l : List α} {i : ℕ} {f : α → α} {x : α}
    (h : x ∈ l.modify i f) : x ∈ l ∨ ∃ y, l[i]? = some y ∧ x = f y := by
  obtain ⟨j, hj, rfl⟩ := List.mem_iff_getElem.mp h
  have hj' : j < l.length := by simpa using hj
  rw [List.getElem_modify]
  by_cases hij : i = j
  · subst hij
    rw [if_pos rfl]
    exact Or.inr ⟨l[i], List.getElem?_eq_getElem hj', rfl⟩
  · rw [if_neg hij]
    exact Or.inl (List.getElem_mem _)

/-- The three possible results of `Monomial.DerivativeWrt` on a well-formed monomial. -/
inductive DerivResult (m : Mono R) (v : Var R) : Scalar R → Prop
  | absent (h : v.id ∉ m.vars.map (·.id)) : DerivResult m v (.k GoNum.zero)
  | linear (w : Var R) (hv : m.vars = [w]) (he : m.exps = [1]) (hw : w.id = v.id) :
      DerivResult m v (.k m.coeff)
  | erase (d : Mono R) (hd : d.Canon) (hv : ∀ w ∈ d.vars, w ∈ m.vars) (hc : d.coeff = m.coeff)
      (hdeg : d.degs + Finsupp.single v.id 1 = m.degs) (h1 : m.degs v.id = 1) :
      DerivResult m v (.mono d)
  | dec (d : Mono R) (e : Int) (hd : d.Canon) (hv : ∀ w ∈ d.vars, w ∈ m.vars)
      (hc : d.coeff = GoNum.mul m.coeff (GoNum.ofInt e))
      (hdeg : d.degs + Finsupp.single v.id 1 = m.degs) (he : m.degs v.id = e.toNat) (h2 : 2 ≤ e) :
      DerivResult m v (.mono d)

theorem Mono.derivative_ok {m : Mono R} (hm : m.Canon) {v : Var R} (hv : v.OK) :
    Go.Ok (m.derivative v) (DerivResult m v) := by
  unfold Mono.derivative
  rw [hm.check, hv.check, Go.ok_bind, Go.ok_bind]
  cases hf : findVar v m.vars with
  | none => exact Go.ok_pure (.absent (findVar_eq_none.mp hf))
  | some i =>
    obtain ⟨w, hw, hwv⟩ := findVar_some hf
    have hi := findVar_lt hf
    have hie : i < m.exps.length := by rw [hm.len]; exact hi
    have he : m.exps[i]? = some m.exps[i] := List.getElem?_eq_getElem hie
    simp only [he]
    have hpos : 0 < m.exps[i] := hm.pos _ (List.getElem_mem hie)
    have hdv : m.degs v.id = m.exps[i].toNat := by
      rw [← hwv]
      apply hm.degs_apply
      rw [List.mem_iff_getElem?]
      refine ⟨i, ?_⟩
      rw [List.getElem?_zip_eq_some]
      exact ⟨hw, he⟩
    by_cases h1 : m.exps[i] = 1
    · by_cases hl : m.vars.length = 1
      · rw [if_pos ⟨h1, hl⟩]
        obtain ⟨u, hu⟩ := List.length_eq_one_iff.mp hl
        have hi0 : i = 0 := by omega
        subst hi0
        obtain ⟨e, hee⟩ := List.length_eq_one_iff.mp (by rw [hm.len, hl] : m.exps.length = 1)
        refine Go.ok_pure (.linear u hu ?_ ?_)
        · simp only [hee] at h1 ⊢
          simpa using h1
        · simp only [hu] at hw
          simp only [List.getElem?_cons_zero, Option.some.injEq] at hw
          rw [hw]; exact hwv
      · rw [if_neg (fun h => hl h.2), if_pos h1]
        refine Go.ok_pure (.erase _ ⟨?_, ?_, ?_, ?_⟩ ?_ rfl ?_ (by rw [hdv, h1]; rfl))
        · simp only [List.length_eraseIdx, hm.len]
        · intro e hmem
          exact hm.pos e (List.mem_of_mem_eraseIdx hmem)
        · show ((m.vars.eraseIdx i).map (·.id)).Nodup
          exact hm.nodup.sublist ((List.eraseIdx_sublist _ _).map _)
        · intro u hu
          exact hm.ok u (List.mem_of_mem_eraseIdx hu)
        · intro u hu
          exact List.mem_of_mem_eraseIdx hu
        · have := pdegs_zip_eraseIdx hm.len hw he
          rw [h1, hwv] at this
          exact this
    · rw [if_neg (fun h => h1 h.1), if_neg h1]
      refine Go.ok_pure (.dec _ m.exps[i] ⟨?_, ?_, hm.nodup, hm.ok⟩ (fun w h => h) rfl ?_ hdv
        (by omega))
      · simp only [List.length_modify, hm.len]
      · intro e hmem
        rcases mem_of_mem_modify hmem with h | ⟨y, hy, rfl⟩
        · exact hm.pos e h
        · rw [he, Option.some.injEq] at hy
          subst hy
          show 0 < m.exps[i] - 1
          omega
      · have := pdegs_zip_modify_sub hm.len hw he hpos
        rw [hwv] at this
        exact this

theorem DerivResult.canon {m : Mono R} {v : Var R} {r : Scalar R} (h : DerivResult m v r) :
    r.Canon := by
  cases h with
  | absent h => trivial
  | linear => trivial
  | erase d hd => exact hd
  | dec d e hd => exact hd

theorem DerivResult.mentions {m : Mono R} {v : Var R} {r : Scalar R} (h : DerivResult m v r)
    {w : Var R} (hw : r.Mentions w) : w ∈ m.vars := by
  cases h with
  | absent h => exact hw.elim
  | linear => exact hw.elim
  | erase d hd hv => exact hv w hw
  | dec d e hd hv => exact hv w hw

end Struct

section Value
variable [Field R] [LinearOrder R]

theorem DerivResult.den {m : Mono R} (hm : m.Canon) {v : Var R} {r : Scalar R}
    (h : DerivResult m v r) : r.den = pderiv v.id m.den := by
  have hpd : pderiv v.id m.den =
      monomial (m.degs - Finsupp.single v.id 1) (m.coeff * (m.degs v.id : R)) := by
    unfold Mono.den
    rw [pderiv_monomial]
  rw [hpd]
  cases h with
  | absent h =>
    rw [Mono.degs_apply_notMem hm.len h]
    simp
  | linear w hv he hw =>
    have hd : m.degs = Finsupp.single v.id 1 := by
      rcases m with ⟨c, es, vs⟩
      simp only at hv he
      subst hv he
      rw [Var.degs_one, hw]
      rfl
    rw [hd]
    simp
  | erase d hd hv hc hdeg h1 =>
    rw [Scalar.den_mono, Mono.den, hc, h1, ← hdeg, add_tsub_cancel_right]
    simp
  | dec d e hd hv hc hdeg he h2 =>
    rw [Scalar.den_mono, Mono.den, hc, he, ← hdeg, add_tsub_cancel_right, gn_mul, gn_ofInt]
    congr 2
    rw [← Int.cast_natCast, Int.toNat_of_nonneg (by omega)]

end Value

end Verif
