import Verif.Props.Checked
import Verif.Props.Forms

/-!
# C75: the check accepts every program covered by C62

In particular programs of degree at most two in any number of variables, and of any degree in one variable.
-/

set_option linter.unusedSectionVars false

namespace Verif

open MvPolynomial

/-- A term written so. -/
private def term (w : Writing) : Mono ℚ := ⟨1, w.2, w.1.map wv⟩

private theorem term_writing (w : Writing) : (term w).writing = w := by
  unfold term Mono.writing
  simp [Function.comp_def, wv]

private theorem term_degs (w : Writing) : (term w).degs = w.degs := by
  rw [← Mono.writing_degs, term_writing]

private theorem term_canon {w : Writing} (h : w.Proper) : (term w).Canon := by
  refine ⟨by simp [term, h.len], h.pos, ?_, ?_⟩
  · show ((w.1.map _).map _).Nodup
    simpa [Function.comp_def, wv] using h.nodup
  · intro v hv
    obtain ⟨i, -, rfl⟩ := List.mem_map.mp hv
    exact wv_ok i

private theorem proper_of {m : Mono ℚ} (h : m.Canon) : m.writing.Proper := ⟨h.lenW, h.nodup, h.pos⟩

theorem Writing.Proper.mul {w w' : Writing} (h : w.Proper) (h' : w'.Proper) :
    (w.mul w').Proper ∧ (w.mul w').degs = w.degs + w'.degs := by
  obtain ⟨p, -, h1, h2, h3, -⟩ := Mono.mulMono_writing (term_canon h) (term_canon h')
  rw [term_writing, term_writing] at h2
  rw [← h2]
  exact ⟨proper_of h1, by rw [Mono.writing_degs, h3, term_degs, term_degs]⟩

theorem Writing.Proper.deriv {w : Writing} {i : ℕ} (h : w.Proper) (hi : i ∈ w.1) :
    (Shape.derivW i w).Proper ∧ (Shape.derivW i w).degs + Finsupp.single i 1 = w.degs := by
  have hc := term_canon h
  have hv : (wv i).OK := wv_ok i
  obtain ⟨r, h1, h2⟩ := Mono.derivative_ok hc hv
  have key : ∀ d : Mono ℚ, r = .mono d → d.Canon → d.degs + Finsupp.single i 1 = (term w).degs →
      (Shape.derivW i w).Proper ∧ (Shape.derivW i w).degs + Finsupp.single i 1 = w.degs := by
    rintro d rfl hd hdeg
    obtain ⟨-, e⟩ := Shape.derivative_writing hc hv h1
    rw [term_writing] at e
    rw [← show d.writing = Shape.derivW i w from e, Mono.writing_degs, hdeg, term_degs]
    exact ⟨proper_of hd, rfl⟩
  cases h2 with
  | absent hn => exact absurd (by rw [show (term w).vars.map (·.id) = w.1 from congrArg Prod.fst (term_writing w)]; exact hi) hn
  | linear u hu he hw =>
    have e1 : w.1 = [i] := by
      have := congrArg Prod.fst (term_writing w)
      rw [← this]
      show (term w).vars.map (·.id) = _
      rw [hu, List.map_singleton, hw]
      rfl
    have e2 : w.2 = [1] := he
    have e : w = ([i], [1]) := Prod.ext e1 e2
    rw [e]
    have e3 : Shape.derivW i ([i], [1]) = ([], []) := by
      simp [Shape.derivW, Writing.exp]
    rw [e3]
    exact ⟨⟨rfl, List.nodup_nil, fun e he => by cases he⟩, by simp [Writing.degs]⟩
  | erase d hd _ _ hdeg _ => exact key d rfl hd hdeg
  | dec d e hd _ _ hdeg _ _ => exact key d rfl hd hdeg

/-- All terms are proper and have exponent vectors in `D`. -/
def Shape.In (a : Shape) (D : Set (ℕ →₀ ℕ)) : Prop := ∀ w ∈ a.ws, w.Proper ∧ w.degs ∈ D

namespace Shape
variable {a b : Shape} {A B D : Set (ℕ →₀ ℕ)}

theorem In.mono (h : a.In A) (hs : A ⊆ D) : a.In D := fun w hw => ⟨(h w hw).1, hs (h w hw).2⟩

theorem In.ok (h : a.In D) (hD : D ⊆ flat) : a.ok = true := by
  unfold Shape.ok
  rw [Bool.and_eq_true, List.all_eq_true, List.all_eq_true]
  refine ⟨fun w hw => List.all_eq_true.mpr fun e he => decide_eq_true ((h w hw).1.pos e he).le, fun w hw => ?_⟩
  rw [List.all_eq_true]
  intro w' hw'
  rw [Bool.not_eq_true', ← Bool.not_eq_true]
  unfold clash
  rw [Bool.and_eq_true, Bool.and_eq_true, Bool.and_eq_true, List.all_eq_true, List.all_eq_true]
  rintro ⟨⟨⟨h1, h2⟩, h3⟩, h4⟩
  rw [Bool.not_eq_true', List.all_eq_false] at h4
  obtain ⟨i, hi, hne⟩ := h4
  have he : w.2 = w'.2 := of_decide_eq_true h3
  have con : ∀ u ∈ a.ws, ∀ j ∈ u.1, ∀ e ∈ u.2, u.exp j = e := by
    intro u hu j hj e hm
    have cu := term_canon (h u hu).1
    have wu := term_writing u
    have fu : ∀ j ∈ u.1, j ∈ (term u).degs.support := by
      intro j hj
      rw [cu.support, List.mem_toFinset]
      show j ∈ (term u).writing.1
      rw [wu]
      exact hj
    obtain ⟨k, hk, rfl⟩ := List.mem_iff_getElem.mp hm
    have hk1 : k < u.1.length := by rw [← (h u hu).1.len]; exact hk
    have hex : u.1.map u.exp = u.2 := exps_eq (h u hu).1.len (h u hu).1.nodup
    have ek : u.exp u.1[k] = u.2[k] := by
      have : (u.1.map u.exp)[k]'(by rw [List.length_map]; exact hk1) = u.2[k] := by simp only [hex]
      rwa [List.getElem_map] at this
    rw [← ek]
    have hd := hD (h u hu).2
    rw [← term_degs] at hd
    have := hd j (fu j hj) u.1[k] (fu _ (List.getElem_mem hk1))
    have e1 := cu.exp j
    have e2 := cu.exp u.1[k]
    rw [wu] at e1 e2
    rw [e1, e2, this]
  have hi' : i ∈ w'.1 := of_decide_eq_true (h1 i hi)
  have hn : w.2 ≠ [] := by
    intro h0
    have := (h w hw).1.len
    rw [h0] at this
    rw [List.eq_nil_of_length_eq_zero this.symm] at hi
    cases hi
  obtain ⟨e, hm⟩ := List.exists_mem_of_ne_nil _ hn
  refine hne (decide_eq_true ?_)
  rw [con w hw i hi e hm, con w' hw' i hi' e (he ▸ hm)]

theorem in_one : one.In D := fun w hw => by cases hw

theorem in_var {i : ℕ} (h : Finsupp.single i 1 ∈ D) : (var i).In D := by
  intro w hw
  rw [List.mem_singleton.mp hw]
  refine ⟨⟨rfl, List.nodup_singleton i, by simp⟩, ?_⟩
  simpa [Writing.degs] using h

theorem In.add (ha : a.In D) (hb : b.In D) : (a.add b).In D := by
  intro w hw
  rcases List.mem_append.mp (List.mem_dedup.mp hw) with h | h
  · exact ha w h
  · exact hb w h

theorem in_prods {X Y : List Writing}
    (hX : ∀ w ∈ X, w.Proper ∧ w.degs ∈ A) (hY : ∀ w ∈ Y, w.Proper ∧ w.degs ∈ B) (hp : ProdIn A B D) :
    ∀ w ∈ prods X Y, w.Proper ∧ w.degs ∈ D := by
  intro w hw
  unfold prods at hw
  rw [List.mem_filter, List.mem_flatMap] at hw
  obtain ⟨⟨u, hu, hm⟩, hne⟩ := hw
  obtain ⟨u', hu', rfl⟩ := List.mem_map.mp hm
  rcases List.mem_cons.mp hu with rfl | hu <;> rcases List.mem_cons.mp hu' with rfl | hu'
  · cases hne
  · rw [(Writing.nil_mul (hY u' hu').1.len (hY u' hu').1.nodup).1]
    exact ⟨(hY u' hu').1, hp.right (hY u' hu').2⟩
  · rw [(Writing.nil_mul (hX u hu).1.len (hX u hu).1.nodup).2]
    exact ⟨(hX u hu).1, hp.left (hX u hu).2⟩
  · obtain ⟨h1, h2⟩ := (hX u hu).1.mul (hY u' hu').1
    exact ⟨h1, h2 ▸ hp.add _ (hX u hu).2 _ (hY u' hu').2⟩

theorem In.mul (ha : a.In A) (hb : b.In B) (hp : ProdIn A B D) : (a.mul b).In D := by
  have hp' : ProdIn B A D := ⟨hp.right, hp.left, fun d hd d' hd' => add_comm d d' ▸ hp.add d' hd' d hd⟩
  intro w hw
  rcases List.mem_append.mp (List.mem_dedup.mp hw) with h | h
  · exact in_prods ha hb hp w h
  · split at h
    · exact in_prods hb ha hp' w h
    · cases h

theorem nsum_succ {n : ℕ} {d : ℕ →₀ ℕ} (h : NSum A n d) : NSum A (n + 1) d := by
  induction h with
  | one hd => exact .one hd
  | add _ hd ih => exact .add ih hd

theorem In.pow (ha : a.In A) (n : ℕ) : (a.pow n).In {d | NSum A n d} := by
  induction n with
  | zero => exact in_one
  | succ n ih => exact ih.mul ha ⟨fun d hd => nsum_succ hd, fun d hd => .one hd, fun d hd d' hd' => .add hd hd'⟩

theorem In.powOk (ha : a.In A) (n : ℕ) (h : {d | NSum A n d} ⊆ flat) : a.powOk n = true := by
  induction n with
  | zero => rfl
  | succ n ih =>
    show (a.powOk n && (a.pow (n + 1)).ok) = true
    rw [ih fun d hd => h (nsum_succ hd), (ha.pow (n + 1)).ok h]
    rfl

section
variable {T : ℕ → Shape} {S : ℕ → Set (ℕ →₀ ℕ)}

private theorem in_subst (pre l : List (Var ℚ × Int)) (hT : ∀ ve ∈ l, (T ve.1.id).In (S ve.1.id))
    (ha : a.In (PSet S pre)) (hD : PSet S (pre ++ l) ⊆ flat) :
    (subst T a (l.map fun ve => (ve.1.id, ve.2))).In (PSet S (pre ++ l)) ∧
      substOk T a (l.map fun ve => (ve.1.id, ve.2)) = true := by
  induction l generalizing a pre with
  | nil =>
    rw [List.append_nil]
    exact ⟨ha, rfl⟩
  | cons ve l ih =>
    have e : pre ++ ve :: l = (pre ++ [ve]) ++ l := by simp
    rw [e] at hD ⊢
    have hp := (hT ve (List.mem_cons_self ..)).pow ve.2.toNat
    have h1 : (a.mul ((T ve.1.id).pow ve.2.toNat)).In (PSet S (pre ++ [ve])) := ha.mul hp (prodIn_PSet S pre ve)
    have hD1 : PSet S (pre ++ [ve]) ⊆ flat := (PSet_left _ _ _).trans hD
    obtain ⟨i1, i2⟩ := ih (pre ++ [ve]) (fun u hu => hT u (List.mem_cons_of_mem _ hu)) h1 hD
    refine ⟨i1, ?_⟩
    rw [List.map_cons]
    show ((T ve.1.id).powOk ve.2.toNat && (a.mul ((T ve.1.id).pow ve.2.toNat)).ok && _) = true
    rw [(hT ve (List.mem_cons_self ..)).powOk _ ((nsum_PSet S ve).trans ((PSet_right _ _ _).trans hD1)), h1.ok hD1, i2]
    rfl

theorem In.substAll (ha : a.In A) {c : List ℕ → Bool} {q : Bool} (hD : D ⊆ flat)
    (hT : ∀ w ∈ a.ws, c w.1 = true → ∀ i ∈ w.1, (T i).In (S i))
    (hS : ∀ w ∈ a.ws, c w.1 = false → ∀ i ∈ w.1, Finsupp.single i 1 ∈ S i)
    (h : ∀ d ∈ A, SubstTerms S d ⊆ D) :
    (a.substAll T c q).In D ∧ a.substAllOk T c q = true := by
  have hz : ∀ w : Writing, ((term w).vars.zip (term w).exps).map (fun ve => (ve.1.id, ve.2)) = w.1.zip w.2 := by
    intro w
    have := term_writing w
    unfold Mono.writing at this
    rw [show w.1.zip w.2 = ((term w).vars.map (·.id)).zip (term w).exps by rw [← (Prod.ext_iff.mp this).1]; rfl,
      List.zip_map_left]
    rfl
  have hids : ∀ w : Writing, ∀ v ∈ (term w).vars, v.id ∈ w.1 := by
    intro w v hv
    rw [← (Prod.ext_iff.mp (term_writing w)).1]
    exact List.mem_map.mpr ⟨v, hv, rfl⟩
  have hPS : ∀ w ∈ a.ws, PSet S ((term w).vars.zip (term w).exps) ⊆ D := by
    intro w hw
    refine (PSet_subst S (term_canon (ha w hw).1)).trans ?_
    rw [term_degs]
    exact h _ (ha w hw).2
  have one : ∀ w ∈ a.ws, c w.1 = true → (Shape.subst T .one (w.1.zip w.2)).In D ∧
      substOk T .one (w.1.zip w.2) = true := by
    intro w hw hc
    have := in_subst (T := T) (S := S) [] ((term w).vars.zip (term w).exps)
      (fun ve hve => hT w hw hc _ (hids w _ (List.of_mem_zip hve).1)) in_one ((hPS w hw).trans hD)
    rw [hz w, List.nil_append] at this
    exact ⟨this.1.mono (hPS w hw), this.2⟩
  have h1 : (a.substAll T c q).In D := by
    intro u hu
    obtain ⟨w, hw, hm⟩ := List.mem_flatMap.mp (List.mem_dedup.mp hu)
    by_cases hc : c w.1 = true
    · rw [if_pos hc] at hm
      exact (one w hw hc).1 u hm
    · rw [if_neg hc] at hm
      rw [List.mem_singleton.mp hm]
      refine ⟨(ha w hw).1, hPS w hw ?_⟩
      rw [← term_degs]
      exact degs_mem_PSet fun v hv => hS w hw (by simpa using hc) _ (hids w v hv)
  refine ⟨h1, ?_⟩
  unfold substAllOk
  rw [h1.ok hD, Bool.and_true, List.all_eq_true]
  intro w hw
  by_cases hc : c w.1 = true
  · rw [(one w hw hc).2, Bool.or_true]
  · rw [show c w.1 = false by simpa using hc]
    rfl

end

end Shape

variable {R : Type}

theorem Prog.Fits.check {p : Prog R} {D : Set (ℕ →₀ ℕ)} (h : p.Fits D) : p.checked = true ∧ p.shape.In D := by
  induction h with
  | k h => exact ⟨rfl, Shape.in_one⟩
  | var h hv => exact ⟨rfl, Shape.in_var hv⟩
  | plus _ _ h h1 h2 iha ihb =>
    have := (iha.2.mono h1).add (ihb.2.mono h2)
    refine ⟨?_, this⟩
    simp only [Prog.checked, iha.1, ihb.1, this.ok h.flat, Bool.and_self]
  | minus _ _ h h1 h2 iha ihb =>
    have := (iha.2.mono h1).add (ihb.2.mono h2)
    refine ⟨?_, this⟩
    simp only [Prog.checked, iha.1, ihb.1, this.ok h.flat, Bool.and_self]
  | mul _ _ h h1 iha ihb =>
    have := iha.2.mul ihb.2 h1
    refine ⟨?_, this⟩
    simp only [Prog.checked, iha.1, ihb.1, this.ok h.flat, Bool.and_self]
  | @pow a n A D _ h h1 iha =>
    refine ⟨?_, (iha.2.pow n).mono h1⟩
    simp only [Prog.checked, iha.1, iha.2.powOk n (h1.trans h.flat), Bool.and_self]
  | @simp a A D ha h h1 iha =>
    refine ⟨?_, iha.2.mono h1⟩
    simp only [Prog.checked, iha.1, iha.2.ok ha.node.flat, Bool.and_self]
  | deriv _ h h1 iha =>
    refine ⟨iha.1, ?_⟩
    intro u hu
    obtain ⟨w, hw, rfl⟩ := List.mem_map.mp (List.mem_dedup.mp hu)
    obtain ⟨hw, hi⟩ := List.mem_filter.mp hw
    obtain ⟨e1, e2⟩ := (iha.2 w hw).1.deriv (of_decide_eq_true hi)
    exact ⟨e1, h1 _ (e2 ▸ (iha.2 w hw).2)⟩
  | @subst a v s A S D _ _ h h1 iha ihs =>
    have key := iha.2.substAll (T := fun i => if i = v.id then s.shape else .var i) (S := substTermsFor v S)
      (c := fun l => decide (v.id ∈ l)) (q := s.shape.p) h.flat (by
        intro w _ _ i _
        unfold substTermsFor
        split
        · exact ihs.2
        · exact Shape.in_var rfl) (by
        intro w _ hc i hi
        unfold substTermsFor
        rw [if_neg]
        · rfl
        · rintro rfl
          exact (of_decide_eq_false hc) hi) h1
    refine ⟨?_, key.1⟩
    simp only [Prog.checked, iha.1, ihs.1, key.2, Bool.and_self]
  | @substMap a n key val A D S _ _ h h1 iha ihs =>
    have key := iha.2.substAll (T := replacements key fun j => (val j).shape)
      (S := fun i => {t | (∃ j, (key j).id = i ∧ t ∈ S j) ∨ ((∀ j, (key j).id ≠ i) ∧ t = Finsupp.single i 1)})
      (c := fun _ => true) (q := (List.finRange n).any fun j => (val j).shape.p) h.flat (by
        intro w _ _ i _
        unfold replacements
        split
        · next j hj =>
          have := List.find?_some hj
          exact (ihs j).2.mono fun t ht => .inl ⟨j, of_decide_eq_true this, ht⟩
        · next hj =>
          refine Shape.in_var (.inr ⟨fun j hji => ?_, rfl⟩)
          exact List.find?_eq_none.mp hj j (List.mem_finRange j) (decide_eq_true hji)) (by
        intro w _ hc
        cases hc) h1
    refine ⟨?_, key.1⟩
    simp only [Prog.checked, iha.1, key.2, Bool.and_true, Bool.true_and, List.all_eq_true]
    exact fun j _ => (ihs j).1

/-- C75: the check accepts every program to which C62 applies. -/
theorem fits_checked {p : Prog R} {D : Set (ℕ →₀ ℕ)} (h : p.Fits D) : p.checked = true := h.check.1

theorem quadratic_checked {p : Prog R} (h : p.Quadratic) : p.checked = true := fits_checked h.fits

theorem oneVar_checked {p : Prog R} {x : ℕ} (h : p.OneVar x) : p.checked = true := fits_checked h.fits

/-- The converse is false: `x^2 y` passes the check, but fits no set of C62. -/
theorem checked_fits_false :
    ¬ ∀ p : Prog ℚ, p.checked = true → ∃ D, p.Fits D := by
  intro h
  obtain ⟨D, hD⟩ := h (.mul (.pow (.var wx) 2) (.var wy)) (by decide +kernel)
  cases hD with
  | @mul _ _ A B _ ha hb hn hp =>
    cases ha with
    | @pow _ _ A' _ ha hn' h1 =>
      cases ha with
      | var hn1 hv =>
        cases hb with
        | var hn2 hv2 =>
          have h2 : Finsupp.single wx.id 1 + Finsupp.single wx.id 1 ∈ A := h1 (.add (.one hv) hv)
          have h3 : Finsupp.single 0 1 + Finsupp.single 0 1 + Finsupp.single 1 1 ∈ flat := hn.flat (hp.add _ h2 _ hv2)
          have := h3 0 (by simp) 1 (by simp)
          simp at this

end Verif
