import Verif.Model.Convert
import Verif.Lemmas.Closed
import Verif.Props.ArrayDeriv
import Verif.Props.ArrayInfo
import Verif.Props.NormalForm

/-!
# C52: conversions between kinds, standard constants and queries

A conversion keeps the shape, the meaning of every entry and the variables written in it.  The queries
answer according to the meaning of the entries.
-/

set_option linter.unusedSectionVars false

namespace Verif

open MvPolynomial

variable {R : Type}

/-! ## Conversions -/

/-- `b` has the shape of `a`, and each entry of `b` mentions the same variables as that of `a`. -/
def Expr.SameVars (a b : Expr R) : Prop :=
  List.Forall₂ (List.Forall₂ fun x y => ∀ v, Scalar.Mentions x v ↔ Scalar.Mentions y v) a.grid b.grid

/-- `b` has the shape of `a`, and each entry of `b` denotes the same polynomial as that of `a`. -/
def Expr.SameDen [CommSemiring R] (a b : Expr R) : Prop :=
  List.Forall₂ (List.Forall₂ fun x y => Scalar.den x = Scalar.den y) a.grid b.grid

private theorem forall₂_vec {α : Type} {Q : Scalar R → Scalar R → Prop} {f g : α → Scalar R} {l : List α}
    (h : ∀ x ∈ l, Q (f x) (g x)) :
    List.Forall₂ (List.Forall₂ Q) (l.map (fun x => [f x])) (l.map (fun x => [g x])) := by
  induction l with
  | nil => simp
  | cons x l ih =>
    simp only [List.map_cons]
    exact .cons (.cons (h x (by simp)) .nil) (ih fun y hy => h y (by simp [hy]))

private theorem forall₂_map {α : Type} {Q : Scalar R → Scalar R → Prop} {f g : α → Scalar R} {l : List α}
    (h : ∀ x ∈ l, Q (f x) (g x)) : List.Forall₂ Q (l.map f) (l.map g) := by
  induction l with
  | nil => simp
  | cons x l ih =>
    simp only [List.map_cons]
    exact .cons (h x (by simp)) (ih fun y hy => h y (by simp [hy]))

private theorem forall₂_mat {α : Type} {Q : Scalar R → Scalar R → Prop} {f g : α → Scalar R}
    {rows : List (List α)} (h : ∀ row ∈ rows, ∀ x ∈ row, Q (f x) (g x)) :
    List.Forall₂ (List.Forall₂ Q) (rows.map (·.map f)) (rows.map (·.map g)) := by
  induction rows with
  | nil => simp
  | cons x l ih =>
    simp only [List.map_cons]
    exact .cons (forall₂_map (h x (by simp))) (ih fun y hy => h y (by simp [hy]))

section Struct
variable [GoNum R]

/-- The result of a conversion: same shape, same variables, well formed. -/
private theorem vec_conv {α β : Type} {f : α → Scalar R} {g : β → Scalar R} {c : α → β} {l : List α}
    {a b : Vec R} (ha : a.entries = l.map f) (hb : b.entries = (l.map c).map g)
    (hv : ∀ x v, (f x).Mentions v ↔ (g (c x)).Mentions v) (hc : ∀ x ∈ l, (g (c x)).Canon) :
    (Expr.v a).SameVars (.v b) ∧ (Expr.v b).Canon := by
  constructor
  · unfold Expr.SameVars Expr.grid
    dsimp only
    rw [ha, hb]
    simp only [List.map_map, Function.comp_def]
    exact forall₂_vec fun x _ => hv x
  · unfold Expr.Canon Expr.All Expr.grid
    dsimp only
    rw [hb]
    intro row hrow y hy
    simp only [List.map_map, List.mem_map, Function.comp_def] at hrow
    obtain ⟨x, hx, rfl⟩ := hrow
    rw [List.mem_singleton.mp hy]
    exact hc x hx

private theorem mat_conv {α β : Type} {f : α → Scalar R} {g : β → Scalar R} {c : α → β}
    {rows : List (List α)} {a b : Mat R} (ha : a.entries = rows.map (·.map f))
    (hb : b.entries = (rows.map (·.map c)).map (·.map g))
    (hv : ∀ x v, (f x).Mentions v ↔ (g (c x)).Mentions v)
    (hc : ∀ row ∈ rows, ∀ x ∈ row, (g (c x)).Canon) :
    (Expr.m a).SameVars (.m b) ∧ (Expr.m b).Canon := by
  constructor
  · unfold Expr.SameVars Expr.grid
    dsimp only
    rw [ha, hb]
    simp only [List.map_map, Function.comp_def]
    exact forall₂_mat fun _ _ x _ => hv x
  · unfold Expr.Canon Expr.All Expr.grid
    dsimp only
    rw [hb]
    intro row hrow y hy
    simp only [List.map_map, List.mem_map, Function.comp_def] at hrow
    obtain ⟨row, hr, rfl⟩ := hrow
    obtain ⟨x, hx, rfl⟩ := List.mem_map.mp hy
    exact hc row hr x hx

theorem kToMono_canon (c : R) : (kToMono c).Canon := by
  constructor <;> simp [kToMono]

theorem varToMono_canon {v : Var R} (h : v.OK) : v.toMono.Canon := by
  constructor <;> simp [Var.toMono, h]

theorem monoToPoly_canon {m : Mono R} (h : m.Canon) : m.toPoly.Canon :=
  ⟨by simp [Mono.toPoly], by simpa [Mono.toPoly] using h⟩

theorem Poly.Canon.check {p : Poly R} (h : p.Canon) : p.check = .ok () := by
  unfold Poly.check
  rw [if_neg h.ne]
  exact Go.forM_ok _ _ fun m hm => (h.all m hm).check

private theorem shape_rows {α : Type} {f : α → Scalar R} {rows : List (List α)} {a : Mat R} {r c : ℕ}
    (ha : a.entries = rows.map (·.map f)) (hs : (Expr.m a).Shape r c) :
    rows.length = r ∧ ∀ row ∈ rows, row.length = c := by
  obtain ⟨h1, h2⟩ := hs
  unfold Expr.grid at h1 h2
  dsimp only at h1 h2
  rw [ha] at h1 h2
  refine ⟨by simpa using h1, fun row hrow => ?_⟩
  have := h2 (row.map f) (List.mem_map.mpr ⟨row, hrow, rfl⟩)
  simpa using this

/-- C52: a vector of constants as monomials, of any length. -/
theorem kvToMonoVec_total (l : List R) : ∃ l', kvToMonoVec l = .ok l' ∧
    (Expr.v (.k l)).SameVars (.v (.m l')) ∧ (Expr.v (.m l')).Canon :=
  ⟨_, rfl, vec_conv rfl rfl (fun _ _ => by simp [Scalar.Mentions, kToMono])
    fun x _ => kToMono_canon x⟩

/-- C52: a non-empty vector of monomials as polynomials. -/
theorem mvToPolyVec_total {l : List (Mono R)} (hn : l ≠ []) (hc : (Expr.v (.m l)).Canon) :
    ∃ l', mvToPolyVec l = .ok l' ∧ (Expr.v (.m l)).SameVars (.v (.p l')) ∧ (Expr.v (.p l')).Canon := by
  have hm : ∀ m ∈ l, m.Canon := fun m hm =>
    hc [.mono m] (by simp [Expr.grid, Vec.entries, hm]) (.mono m) (by simp)
  refine ⟨l.map Mono.toPoly, ?_, vec_conv rfl rfl (fun _ _ => by simp [Scalar.Mentions, Mono.toPoly])
    fun x hx => monoToPoly_canon (hm x hx)⟩
  unfold mvToPolyVec Vec.check
  dsimp only
  rw [if_neg hn, Go.forM_ok _ _ fun m h => (hm m h).check]
  rfl

/-- C52: a non-empty vector of constants as polynomials. -/
theorem kvToPolyVec_total {l : List R} (hn : l ≠ []) : ∃ l', kvToPolyVec l = .ok l' ∧
    (Expr.v (.k l)).SameVars (.v (.p l')) ∧ (Expr.v (.p l')).Canon := by
  refine ⟨l.map fun x => (kToMono x).toPoly, ?_, vec_conv (f := Scalar.k) (g := Scalar.poly) rfl rfl
    (fun _ _ => by simp [Scalar.Mentions, kToMono, Mono.toPoly])
    fun x _ => monoToPoly_canon (kToMono_canon x)⟩
  show mvToPolyVec (l.map kToMono) = _
  unfold mvToPolyVec Vec.check
  dsimp only
  rw [if_neg (by simpa using hn), Go.forM_ok _ _ fun m h => by
    obtain ⟨x, -, rfl⟩ := List.mem_map.mp h
    exact (kToMono_canon x).check, Go.ok_bind, List.map_map]
  rfl

/-- C52 is false for the empty vector of constants: `ToMonomialVector` returns an empty vector,
`ToPolynomialVector` panics on it. -/
theorem kvToPolyVec_panics : kvToMonoVec ([] : List R) = .ok [] ∧
    kvToPolyVec ([] : List R) = .error .check := ⟨rfl, rfl⟩

/-- C52: a vector of variables as monomials. -/
theorem vvToMonoVec_total {l : List (Var R)} (hl : ∀ v ∈ l, v.OK) : ∃ l', vvToMonoVec l = .ok l' ∧
    (Expr.v (.v l)).SameVars (.v (.m l')) ∧ (Expr.v (.m l')).Canon := by
  refine ⟨l.map Var.toMono, ?_, vec_conv rfl rfl (fun _ _ => by simp [Scalar.Mentions, Var.toMono])
    fun x hx => varToMono_canon (hl x hx)⟩
  unfold vvToMonoVec Vec.check
  dsimp only
  rw [Go.forM_ok _ _ fun v h => (hl v h).check]
  rfl

/-- C52: a vector of variables as polynomials. -/
theorem vvToPolyVec_total {l : List (Var R)} (hl : ∀ v ∈ l, v.OK) : ∃ l', vvToPolyVec l = .ok l' ∧
    (Expr.v (.v l)).SameVars (.v (.p l')) ∧ (Expr.v (.p l')).Canon := by
  refine ⟨l.map Var.toPoly, ?_, vec_conv rfl rfl
    (fun _ _ => by simp [Scalar.Mentions, Var.toPoly, Var.toMono])
    fun x hx => monoToPoly_canon (varToMono_canon (hl x hx))⟩
  unfold vvToPolyVec Vec.check
  dsimp only
  rw [Go.forM_ok _ _ fun v h => (hl v h).check]
  rfl

/-- `VariableVector.Copy` returns the same variables. -/
theorem vvCopy_eq (l : List (Var R)) : vvCopy l = .ok l := by
  have h : ∀ n ≤ l.length, (List.range n).foldlM (fun (out : List (Var R)) (i : Nat) => do
      return out ++ [← goGet l i]) [] = (.ok (l.take n) : Go (List (Var R))) := by
    intro n
    induction n with
    | zero => intro _; rfl
    | succ n ih =>
      intro hn
      have hi : l[n]? = some l[n] := List.getElem?_eq_getElem (by omega)
      rw [List.range_succ, List.foldlM_append, ih (by omega), Go.ok_bind, List.foldlM_cons,
        LArr.goGet_eq hi, Go.ok_bind, Go.pure_eq, Go.ok_bind, List.take_add_one, hi]
      rfl
  have := h l.length le_rfl
  rwa [List.take_length] at this

/-! ### Matrices -/

private theorem range_goGet {α β : Type} (f : α → β) (row : List α) (c : ℕ) :
    (List.range c).mapM (fun (j : ℕ) => do return f (← goGet row j)) =
      (if c ≤ row.length then .ok ((row.take c).map f) else .error .index : Go (List β)) := by
  induction c with
  | zero => rfl
  | succ c ih =>
    rw [List.range_succ, List.mapM_append, ih]
    by_cases h : c + 1 ≤ row.length
    · have hi : row[c]? = some row[c] := List.getElem?_eq_getElem (by omega)
      rw [if_pos (by omega), if_pos h, Go.ok_bind, List.mapM_cons, LArr.goGet_eq hi, List.take_add_one, hi,
        List.map_append]
      rfl
    · rw [if_neg h]
      by_cases h' : c ≤ row.length
      · rw [if_pos h', Go.ok_bind, List.mapM_cons, goGet_bad (by omega)]
        rfl
      · rw [if_neg h']
        rfl

private theorem range_goGet2 {α β : Type} (f : α → β) (rows : List (List α)) (c : ℕ) {n : ℕ}
    (hn : n ≤ rows.length) :
    (List.range n).mapM (fun (i : ℕ) => (List.range c).mapM (fun (j : ℕ) => do
      return f (← goGet2 rows i j))) =
      (if ∀ row ∈ rows.take n, c ≤ row.length then .ok ((rows.take n).map fun row => (row.take c).map f)
        else .error .index : Go (List (List β))) := by
  induction n with
  | zero => simp [Go.pure_eq]
  | succ n ih =>
    have hi : rows[n]? = some rows[n] := List.getElem?_eq_getElem (by omega)
    have he : (List.range c).mapM (fun (j : ℕ) => (do return f (← goGet2 rows n j) : Go β)) =
        if c ≤ rows[n].length then .ok ((rows[n].take c).map f) else .error .index := by
      rw [← range_goGet]
      congr 1
      funext j
      rw [goGet2, LArr.goGet_eq hi, Go.ok_bind]
    rw [List.range_succ, List.mapM_append, ih (by omega), List.mapM_cons, he, List.take_add_one, hi]
    by_cases h1 : ∀ row ∈ rows.take n, c ≤ row.length
    · rw [if_pos h1, Go.ok_bind]
      by_cases h2 : c ≤ rows[n].length
      · rw [if_pos h2, if_pos]
        · rw [List.map_append]
          rfl
        · intro row hrow
          rcases List.mem_append.mp hrow with h | h
          · exact h1 row h
          · simp only [Option.toList_some, List.mem_singleton] at h
            rw [h]; exact h2
      · rw [if_neg h2, if_neg]
        · rfl
        · intro h
          exact h2 (h _ (List.mem_append_right _ (List.mem_singleton_self _)))
    · rw [if_neg h1, if_neg (show ¬ ∀ row ∈ rows.take n ++ (some rows[n]).toList, c ≤ row.length from
        fun h => h1 fun row hrow => h row (List.mem_append_left _ hrow))]
      rfl

/-- C52: what the conversions of constant matrices compute, for all slices of rows: every row is cut
to the length of the first one, and a shorter row panics. -/
theorem kmConvert_eq (r0 : List R) (rest : List (List R)) :
    (kmToMonoMat (r0 :: rest) = if ∀ row ∈ rest, r0.length ≤ row.length then
      .ok ((r0 :: rest).map fun row => (row.take r0.length).map fun c => ⟨c, [], []⟩) else .error .index) ∧
    (kmToPolyMat (r0 :: rest) = if ∀ row ∈ rest, r0.length ≤ row.length then
      .ok ((r0 :: rest).map fun row => (row.take r0.length).map fun c => ⟨[⟨c, [], []⟩]⟩)
      else .error .index) := by
  have h : ∀ {α : Type} (f : R → α), kmConvert f (r0 :: rest) =
      if ∀ row ∈ rest, r0.length ≤ row.length then
        .ok ((r0 :: rest).map fun row => (row.take r0.length).map f) else .error .index := by
    intro α f
    have := range_goGet2 f (r0 :: rest) r0.length (n := rest.length + 1) (by simp)
    rw [List.take_of_length_le (by simp)] at this
    simp only [List.forall_mem_cons, le_refl, true_and] at this
    exact this
  exact ⟨h kToMono, h kToPoly⟩

/-- C52: rectangular constant matrices as monomials and as polynomials. -/
theorem kmConvert_total {rows : List (List R)} {r c : ℕ} (hs : (Expr.m (.k rows)).Shape r c) (hr : 0 < r) :
    (∃ rows', kmToMonoMat rows = .ok rows' ∧ (Expr.m (.k rows)).SameVars (.m (.m rows')) ∧
      (Expr.m (.m rows')).Canon) ∧
    (∃ rows', kmToPolyMat rows = .ok rows' ∧ (Expr.m (.k rows)).SameVars (.m (.p rows')) ∧
      (Expr.m (.p rows')).Canon) := by
  obtain ⟨hl, hw⟩ := shape_rows (f := Scalar.k) rfl hs
  cases rows with
  | nil => simp at hl; omega
  | cons r0 rest =>
    obtain ⟨h1, h2⟩ := kmConvert_eq r0 rest
    have h0 := hw r0 (by simp)
    rw [if_pos fun row hrow => by rw [h0, hw row (by simp [hrow])]] at h1 h2
    have e : ∀ {α : Type} (f : R → α), ((r0 :: rest).map fun row => (row.take r0.length).map f) =
        (r0 :: rest).map (·.map f) := by
      intro α f
      apply List.map_congr_left
      intro row hrow
      rw [List.take_of_length_le (by rw [h0, hw row hrow])]
    rw [e] at h1 h2
    exact ⟨⟨_, h1, mat_conv (c := kToMono) rfl rfl (fun _ _ => by simp [Scalar.Mentions, kToMono])
      fun _ _ x _ => kToMono_canon x⟩,
      ⟨_, h2, mat_conv (c := kToPoly) rfl rfl (fun _ _ => by simp [Scalar.Mentions, kToPoly, kToMono])
      fun _ _ x _ => monoToPoly_canon (kToMono_canon x)⟩⟩

/-- C52: matrices of variables as monomials and as polynomials. -/
theorem vmConvert_total {rows : List (List (Var R))} {r c : ℕ} (hs : (Expr.m (.v rows)).Shape r c)
    (hr : 0 < r) (hc : (Expr.m (.v rows)).Canon) :
    (∃ rows', vmToMonoMat rows = .ok rows' ∧ (Expr.m (.v rows)).SameVars (.m (.m rows')) ∧
      (Expr.m (.m rows')).Canon) ∧
    (∃ rows', vmToPolyMat rows = .ok rows' ∧ (Expr.m (.v rows)).SameVars (.m (.p rows')) ∧
      (Expr.m (.p rows')).Canon) := by
  have hk : Mat.check (.v rows) = .ok () := Expr.check_ok hc hs hr
  have hv : ∀ row ∈ rows, ∀ v ∈ row, v.OK := fun row hrow v hv =>
    hc (row.map .var) (List.mem_map.mpr ⟨row, hrow, rfl⟩) (.var v) (List.mem_map.mpr ⟨v, hv, rfl⟩)
  constructor
  · refine ⟨_, by unfold vmToMonoMat; rw [hk]; rfl, mat_conv (c := Var.toMono) rfl rfl
      (fun _ _ => by simp [Scalar.Mentions, Var.toMono])
      fun row hrow x hx => varToMono_canon (hv row hrow x hx)⟩
  · refine ⟨_, by unfold vmToPolyMat; rw [hk]; rfl, mat_conv (c := Var.toPoly) rfl rfl
      (fun _ _ => by simp [Scalar.Mentions, Var.toPoly, Var.toMono])
      fun row hrow x hx => monoToPoly_canon (varToMono_canon (hv row hrow x hx))⟩

/-! ## Standard constants -/

/-- C52: `KVector.ToVecDense` gives the same numbers, and panics exactly for the empty vector. -/
theorem kvToVecDense_spec (l : List R) : (l ≠ [] → kvToVecDense l = .ok l) ∧ (l = [] → ∃ e, kvToVecDense l = .error e) := by
  unfold kvToVecDense newVecDense
  exact ⟨fun h => by rw [if_neg h]; rfl, fun h => ⟨.empty, by rw [if_pos h]; rfl⟩⟩

/-- C52: `OnesVector` and `ZerosVector`: exactly for positive lengths. -/
theorem filledVector_spec (n : Int) :
    (0 < n → onesVector (R := R) n = .ok (List.replicate n.toNat GoNum.one) ∧
      zerosVector (R := R) n = .ok (List.replicate n.toNat GoNum.zero)) ∧
    (n ≤ 0 → (∃ e, onesVector (R := R) n = .error e) ∧ ∃ e, zerosVector (R := R) n = .error e) := by
  unfold onesVector zerosVector filledVector newVecDense
  constructor
  · intro h
    rw [if_neg (by omega), if_neg (by rw [List.replicate_eq_nil_iff]; omega), if_neg (by omega),
      if_neg (by rw [List.replicate_eq_nil_iff]; omega)]
    exact ⟨rfl, rfl⟩
  · intro h
    by_cases h0 : n < 0
    · rw [if_pos h0, if_pos h0]
      exact ⟨⟨_, rfl⟩, ⟨_, rfl⟩⟩
    · have : n = 0 := by omega
      subst this
      exact ⟨⟨.empty, rfl⟩, ⟨.empty, rfl⟩⟩

/-- C52: `OnesMatrix` and `ZerosMatrix`: exactly for positive sizes. -/
theorem filledMatrix_spec (r c : Int) :
    (0 < r ∧ 0 < c →
      onesMatrix (R := R) r c = .ok (List.replicate r.toNat (List.replicate c.toNat GoNum.one)) ∧
      zerosMatrix (R := R) r c = .ok (List.replicate r.toNat (List.replicate c.toNat GoNum.zero))) ∧
    (r ≤ 0 ∨ c ≤ 0 → (∃ e, onesMatrix (R := R) r c = .error e) ∧ ∃ e, zerosMatrix (R := R) r c = .error e) := by
  unfold onesMatrix zerosMatrix filledMatrix
  constructor
  · rintro ⟨h1, h2⟩
    have h3 : ¬ r * c < 0 := by have := Int.mul_pos h1 h2; omega
    have h4 : ¬ (r ≤ 0 ∨ c ≤ 0) := by omega
    rw [if_neg h3, if_neg h4, if_neg h3, if_neg h4]
    exact ⟨rfl, rfl⟩
  · intro h
    split
    · exact ⟨⟨_, rfl⟩, ⟨_, rfl⟩⟩
    · exact ⟨⟨_, rfl⟩, ⟨_, rfl⟩⟩

private theorem identity_step {n k : ℕ} (hk : k < n) :
    denseSet ((List.range n).map fun i => (List.range n).map fun j =>
        if i = j ∧ i < k then (GoNum.one : R) else GoNum.zero) k k GoNum.one =
      .ok ((List.range n).map fun i => (List.range n).map fun j =>
        if i = j ∧ i < k + 1 then (GoNum.one : R) else GoNum.zero) := by
  unfold denseSet
  rw [LArr.goGet_eq (a := (List.range n).map fun j => if k = j ∧ k < k then GoNum.one else GoNum.zero)
    (by simp [hk]), Go.ok_bind, LArr.goGet_eq (a := GoNum.zero) (by simp [hk]), Go.ok_bind, Go.pure_eq]
  congr 1
  apply List.ext_getElem
  · simp
  · intro i h1 h2
    simp only [List.getElem_set, List.getElem_map, List.getElem_range]
    split
    · rename_i h
      subst h
      apply List.ext_getElem
      · simp
      · intro j h3 h4
        simp only [List.getElem_set, List.getElem_map, List.getElem_range]
        by_cases hj : k = j <;> simp [hj]
    · rename_i h
      apply List.map_congr_left
      intro j _
      have : i < k + 1 ↔ i < k := by omega
      simp [this]

/-- C52: `Identity(n)` has `n` rows and columns, ones on the diagonal and zeros elsewhere; sizes that
are not positive panic. -/
theorem identity_spec (n : Int) :
    (0 < n → identity (R := R) n = .ok ((List.range n.toNat).map fun i => (List.range n.toNat).map fun j =>
      if i = j then GoNum.one else GoNum.zero)) ∧
    (n ≤ 0 → ∃ e, identity (R := R) n = .error e) := by
  constructor
  · intro h
    have h0 := ((filledMatrix_spec (R := R) n n).1 ⟨h, h⟩).2
    unfold identity
    rw [h0, Go.ok_bind]
    have e0 : List.replicate n.toNat (List.replicate n.toNat (GoNum.zero : R)) =
        (List.range n.toNat).map fun i => (List.range n.toNat).map fun j =>
          if i = j ∧ i < 0 then (GoNum.one : R) else GoNum.zero := by
      simp
    rw [e0]
    have : ∀ k ≤ n.toNat, (List.range k).foldlM (fun acc (i : ℕ) => denseSet acc i i (GoNum.one : R))
        ((List.range n.toNat).map fun i => (List.range n.toNat).map fun j =>
          if i = j ∧ i < 0 then (GoNum.one : R) else GoNum.zero) =
        .ok ((List.range n.toNat).map fun i => (List.range n.toNat).map fun j =>
          if i = j ∧ i < k then (GoNum.one : R) else GoNum.zero) := by
      intro k
      induction k with
      | zero => intro _; rfl
      | succ k ih =>
        intro hk
        rw [List.range_succ, List.foldlM_append, ih (by omega), Go.ok_bind, List.foldlM_cons,
          identity_step (by omega), Go.ok_bind]
        rfl
    rw [this _ le_rfl]
    congr 1
    apply List.map_congr_left
    intro i hi
    have := List.mem_range.mp hi
    simp [this]
  · intro h
    obtain ⟨e, he⟩ := ((filledMatrix_spec (R := R) n n).2 (.inl h)).2
    exact ⟨e, by unfold identity; rw [he]; rfl⟩

/-! ## Queries -/

/-- C52: `MonomialVector.IsConstant` of a non-empty vector: no entry has a variable. -/
theorem mvIsConstant_iff {l : List (Mono R)} (hn : l ≠ []) (hc : (Expr.v (.m l)).Canon) :
    ∃ b, mvIsConstant l = .ok b ∧ (b = true ↔ ∀ v, ¬ (Expr.v (.m l)).Mentions v) := by
  have hm : ∀ m ∈ l, m.Canon := fun m hm =>
    hc [.mono m] (by simp [Expr.grid, Vec.entries, hm]) (.mono m) (by simp)
  refine ⟨l.all Mono.isConstant, ?_, ?_⟩
  · unfold mvIsConstant Vec.check
    dsimp only
    rw [if_neg hn, Go.forM_ok _ _ fun m h => (hm m h).check]
    rfl
  · rw [List.all_eq_true]
    simp only [Mono.isConstant, List.isEmpty_iff, Expr.Mentions, Expr.grid, Vec.entries, List.mem_map]
    constructor
    · rintro h v ⟨row, ⟨x, ⟨m, hm, rfl⟩, rfl⟩, a, ha, hv⟩
      rw [List.mem_singleton.mp ha] at hv
      simp [Scalar.Mentions, h m hm] at hv
    · intro h m hm
      apply List.eq_nil_iff_forall_not_mem.mpr
      intro v hv
      exact h v ⟨_, ⟨_, ⟨m, hm, rfl⟩, rfl⟩, .mono m, by simp, hv⟩

/-- C52: `PolynomialVector.IsConstantVector`: no term of an entry has a variable. -/
theorem pvIsConstantVector_iff {l : List (Poly R)} (hc : (Expr.v (.p l)).Canon) :
    ∃ b, pvIsConstantVector l = .ok b ∧ (b = true ↔ ∀ v, ¬ (Expr.v (.p l)).Mentions v) := by
  have hm : ∀ p ∈ l, p.Canon := fun p hp =>
    hc [.poly p] (by simp [Expr.grid, Vec.entries, hp]) (.poly p) (by simp)
  have hb : ∀ p ∈ l, p.isConstant = .ok p.variables.isEmpty := by
    intro p hp
    unfold Poly.isConstant
    rw [(hm p hp).check]
    rfl
  have hf : ∀ b, l.foldlM (fun (acc : Bool) p => if acc then p.isConstant else pure false) b =
      .ok (b && l.all fun p => p.variables.isEmpty) := by
    clear hm hc
    induction l with
    | nil => intro b; simp [Go.pure_eq]
    | cons p l ih =>
      intro b
      rw [List.foldlM_cons, List.all_cons]
      cases b with
      | false => exact ih (fun q hq => hb q (by simp [hq])) false
      | true =>
        simp only [if_true]
        rw [hb p (by simp), Go.ok_bind, ih fun q hq => hb q (by simp [hq])]
        simp
  refine ⟨_, hf true, ?_⟩
  rw [Bool.true_and, List.all_eq_true]
  simp only [List.isEmpty_iff, Expr.Mentions, Expr.grid, Vec.entries, List.mem_map]
  constructor
  · rintro h v ⟨row, ⟨x, ⟨p, hp, rfl⟩, rfl⟩, a, ha, hv⟩
    rw [List.mem_singleton.mp ha] at hv
    have := (variables_nodup (e := .poly p) (hm p hp)).2.2 v hv
    rw [show (Scalar.poly p).variables = [] from h p hp] at this
    cases this
  · intro h p hp
    apply List.eq_nil_iff_forall_not_mem.mpr
    intro v hv
    exact h v ⟨_, ⟨_, ⟨p, hp, rfl⟩, rfl⟩, .poly p, by simp,
      (variables_nodup (e := .poly p) (hm p hp)).2.1 v hv⟩

private theorem monoIndexLoop_spec {mIn : Mono R} {l : List (Mono R)} {q : Mono R → Bool}
    (h : ∀ m ∈ l, m.matchesFormOf mIn = .ok (q m)) (k : Int) :
    ∃ i, monoIndexLoop mIn l k = .ok i ∧ ((i = -1 ∧ ∀ m ∈ l, q m = false) ∨
      ∃ n : ℕ, i = k + n ∧ (∃ m, l[n]? = some m ∧ q m = true) ∧ ∀ j < n, ∀ m, l[j]? = some m → q m = false) := by
  induction l generalizing k with
  | nil => exact ⟨-1, rfl, .inl ⟨rfl, by simp⟩⟩
  | cons m l ih =>
    unfold monoIndexLoop
    rw [h m (by simp), Go.ok_bind]
    cases hq : q m with
    | true => exact ⟨k, by simp [Go.pure_eq], .inr ⟨0, by simp, ⟨m, by simp, hq⟩, by simp⟩⟩
    | false =>
      obtain ⟨i, h1, h2⟩ := ih (fun a ha => h a (by simp [ha])) (k + 1)
      refine ⟨i, by simpa using h1, ?_⟩
      rcases h2 with ⟨h2, h3⟩ | ⟨n, h2, h3, h4⟩
      · exact .inl ⟨h2, fun a ha => by
          rcases List.mem_cons.mp ha with rfl | ha
          · exact hq
          · exact h3 a ha⟩
      · refine .inr ⟨n + 1, by push_cast; omega, by simpa using h3, fun j hj a ha => ?_⟩
        cases j with
        | zero => simp at ha; rw [← ha]; exact hq
        | succ j => exact h4 j (by omega) a (by simpa using ha)

/-- C52: `VariableIDs` has the ID of each variable of the expression exactly once, and `NumVariables`
is their number. -/
theorem variableIDs_spec {e : Expr R} {r k : ℕ} (hr : 0 < r) (he : e.Canon) (hs : e.Shape r k) :
    ∃ ids, variableIDs e = .ok ids ∧ numVariables e = .ok ids.length ∧ ids.Nodup ∧
      ∀ i, i ∈ ids ↔ ∃ v, e.Mentions v ∧ v.id = i := by
  obtain ⟨vs, h1, h2, h3, h4⟩ := variables_array hr he hs
  refine ⟨vs.map (·.id), by unfold variableIDs; rw [h1]; rfl, by unfold numVariables; rw [h1]; simp [Go.ok_bind, Go.pure_eq], h2, ?_⟩
  intro i
  constructor
  · intro h
    obtain ⟨v, hv, rfl⟩ := List.mem_map.mp h
    exact ⟨v, h3 v hv, rfl⟩
  · rintro ⟨v, hv, rfl⟩
    exact h4 v hv

/-- C52: `IsSquare` compares the numbers of rows and columns. -/
theorem isSquare_spec {a : Mat R} {r k : ℕ} (hr : 0 < r) (he : (Expr.m a).Canon) (hs : (Expr.m a).Shape r k) :
    isSquare a = .ok (decide (r = k)) := by
  unfold isSquare
  rw [show a.dims = .ok (r, k) from Expr.dims_ok he hs hr]
  rfl

/-- C52: what `ToPolynomialLike` accepts, `ToExpression` accepts with the same result. -/
theorem toPolynomialLike_toExpr {x : Arg R} {e : Expr R} (h : x.toPolynomialLike = some e) :
    x.toExpr = some e := by
  cases x <;> simp_all [Arg.toPolynomialLike, Arg.toExpr]

/-- C52: `ToPolynomialLike` accepts exactly what `ToExpression` accepts, except for pointers to gonum
values (`toPolynomialLike_false`). -/
theorem toPolynomialLike_partial {x : Arg R} {e : Expr R} (h1 : ∀ l, x ≠ .vecPtr l)
    (h2 : ∀ rows, x ≠ .densePtr rows) : x.toPolynomialLike = some e ↔ x.toExpr = some e := by
  cases x <;> simp_all [Arg.toPolynomialLike, Arg.toExpr]

private theorem goGet_inv {α : Type} {l : List α} {i : ℕ} {a : α} (h : goGet l (i : Int) = .ok a) :
    l[i]? = some a := by
  unfold goGet at h
  rw [if_neg (by omega), Int.toNat_natCast] at h
  cases hl : l[i]? with
  | none => rw [hl] at h; cases h
  | some b => rw [hl] at h; cases h; rfl

/-- The entries of a matrix after `Dense.Set(i, j, x)`. -/
theorem denseSet_spec {rows rows' : List (List R)} {i j : ℕ} {x : R}
    (h : denseSet rows i j x = .ok rows') (a b : ℕ) :
    (rows'[a]?.bind fun row => row[b]?) =
      if a = i ∧ b = j then some x else rows[a]?.bind fun row => row[b]? := by
  unfold denseSet at h
  obtain ⟨row, h1, h2⟩ := Go.bind_eq_ok.mp h
  obtain ⟨y, h3, h4⟩ := Go.bind_eq_ok.mp h2
  cases h4
  have e1 := goGet_inv h1
  have e2 := goGet_inv h3
  obtain ⟨l1, -⟩ := List.getElem?_eq_some_iff.mp e1
  obtain ⟨l2, -⟩ := List.getElem?_eq_some_iff.mp e2
  by_cases ha : a = i
  · subst ha
    rw [List.getElem?_set_self l1, e1]
    by_cases hb : b = j
    · subst hb
      simp [l2]
    · simp [hb, List.getElem?_set_ne (Ne.symm hb)]
  · rw [List.getElem?_set_ne (Ne.symm ha), if_neg fun h => ha h.1]

/-- The converse is false for pointers to gonum values. -/
theorem toPolynomialLike_false (l : List R) (rows : List (List R)) :
    (Arg.vecPtr l).toExpr = some (.v (.k l)) ∧ (Arg.vecPtr l).toPolynomialLike = none ∧
    (Arg.densePtr rows).toExpr = some (.m (.k rows)) ∧ (Arg.densePtr rows).toPolynomialLike = none :=
  ⟨rfl, rfl, rfl, rfl⟩

end Struct

/-! ## Values -/

section Value
variable [Field R] [LinearOrder R]

private theorem bind_map {α β : Type} {x : Go Unit} {c : α → β} {l : α} {l' : β}
    (h : (do x; return c l : Go β) = .ok l') : l' = c l := by
  obtain ⟨_, -, h⟩ := Go.bind_eq_ok.mp h
  cases h; rfl

/-- C52: whenever a conversion of a vector returns, every entry of the result denotes the polynomial of
the entry it was made from. -/
theorem vec_conversions_denote :
    (∀ (l : List R) l', kvToMonoVec l = .ok l' → (Expr.v (.k l)).SameDen (.v (.m l'))) ∧
    (∀ (l : List R) l', kvToPolyVec l = .ok l' → (Expr.v (.k l)).SameDen (.v (.p l'))) ∧
    (∀ (l : List (Var R)) l', vvToMonoVec l = .ok l' → (Expr.v (.v l)).SameDen (.v (.m l'))) ∧
    (∀ (l : List (Var R)) l', vvToPolyVec l = .ok l' → (Expr.v (.v l)).SameDen (.v (.p l'))) ∧
    (∀ (l : List (Mono R)) l', mvToPolyVec l = .ok l' → (Expr.v (.m l)).SameDen (.v (.p l'))) := by
  have key : ∀ {α β : Type} {f : α → Scalar R} {g : β → Scalar R} (c : α → β) (l : List α)
      {a b : Vec R} (_ : a.entries = l.map f) (_ : b.entries = (l.map c).map g)
      (_ : ∀ x, (f x).den = (g (c x)).den), (Expr.v a).SameDen (.v b) := by
    intro α β f g c l a b ha hb hv
    unfold Expr.SameDen Expr.grid
    dsimp only
    rw [ha, hb]
    simp only [List.map_map, Function.comp_def]
    exact forall₂_vec fun x _ => hv x
  refine ⟨?_, ?_, ?_, ?_, ?_⟩
  · intro l l' h
    rw [bind_map (c := List.map kToMono) h]
    exact key kToMono l rfl rfl fun x => (toMono_den (a := .k x) rfl).symm
  · intro l l' h
    have : l' = (l.map kToMono).map Mono.toPoly := bind_map (c := List.map Mono.toPoly) h
    rw [this]
    exact key (fun x => (kToMono x).toPoly) l rfl (by simp [Vec.entries]) fun x => (toPoly_den (.k x)).symm
  · intro l l' h
    rw [bind_map (c := List.map Var.toMono) h]
    exact key Var.toMono l rfl rfl fun x => (toMono_den (a := .var x) rfl).symm
  · intro l l' h
    rw [bind_map (c := List.map Var.toPoly) h]
    exact key Var.toPoly l rfl rfl fun x => (toPoly_den (.var x)).symm
  · intro l l' h
    rw [bind_map (c := List.map Mono.toPoly) h]
    exact key Mono.toPoly l rfl rfl fun x => (toPoly_den (.mono x)).symm

/-- C52: whenever a conversion of a matrix returns, every entry of the result denotes the polynomial of
the entry it was made from; constant matrices must be rectangular, see `kmConvert_false`. -/
theorem mat_conversions_denote {r c : ℕ} (hr : 0 < r) :
    (∀ (rows : List (List R)) rows', (Expr.m (.k rows)).Shape r c → kmToMonoMat rows = .ok rows' →
      (Expr.m (.k rows)).SameDen (.m (.m rows'))) ∧
    (∀ (rows : List (List R)) rows', (Expr.m (.k rows)).Shape r c → kmToPolyMat rows = .ok rows' →
      (Expr.m (.k rows)).SameDen (.m (.p rows'))) ∧
    (∀ (rows : List (List (Var R))) rows', vmToMonoMat rows = .ok rows' →
      (Expr.m (.v rows)).SameDen (.m (.m rows'))) ∧
    (∀ (rows : List (List (Var R))) rows', vmToPolyMat rows = .ok rows' →
      (Expr.m (.v rows)).SameDen (.m (.p rows'))) := by
  have key : ∀ {α β : Type} {f : α → Scalar R} {g : β → Scalar R} (c : α → β) (rows : List (List α))
      {a b : Mat R} (_ : a.entries = rows.map (·.map f)) (_ : b.entries = (rows.map (·.map c)).map (·.map g))
      (_ : ∀ x, (f x).den = (g (c x)).den), (Expr.m a).SameDen (.m b) := by
    intro α β f g c l a b ha hb hv
    unfold Expr.SameDen Expr.grid
    dsimp only
    rw [ha, hb]
    simp only [List.map_map, Function.comp_def]
    exact forall₂_mat fun _ _ x _ => hv x
  have hk : ∀ (rows : List (List R)), (Expr.m (.k rows)).Shape r c → ∀ {α : Type} (f : R → α) rows',
      kmConvert f rows = .ok rows' → rows' = rows.map (·.map f) := by
    intro rows hs α f rows' h
    obtain ⟨hl, hw⟩ := shape_rows (f := Scalar.k) rfl hs
    cases rows with
    | nil => simp at hl; omega
    | cons r0 rest =>
      have h0 := hw r0 (by simp)
      have := range_goGet2 f (r0 :: rest) r0.length (n := rest.length + 1) (by simp)
      rw [List.take_of_length_le (by simp), if_pos fun row hrow => by rw [h0, hw row hrow]] at this
      have h2 : kmConvert f (r0 :: rest) = _ := this
      rw [h2] at h
      cases h
      apply List.map_congr_left
      intro row hrow
      rw [List.take_of_length_le (by rw [h0, hw row hrow])]
  refine ⟨?_, ?_, ?_, ?_⟩
  · intro rows rows' hs h
    rw [hk rows hs kToMono rows' h]
    exact key kToMono rows rfl rfl fun x => (toMono_den (a := .k x) rfl).symm
  · intro rows rows' hs h
    rw [hk rows hs kToPoly rows' h]
    exact key kToPoly rows rfl rfl fun x => (toPoly_den (.k x)).symm
  · intro rows rows' h
    rw [bind_map (c := List.map (List.map Var.toMono)) h]
    exact key Var.toMono rows rfl rfl fun x => (toMono_den (a := .var x) rfl).symm
  · intro rows rows' h
    rw [bind_map (c := List.map (List.map Var.toPoly)) h]
    exact key Var.toPoly rows rfl rfl fun x => (toPoly_den (.var x)).symm

/-- C52 for terms whose exponents are all equal (this includes all terms of degree at most two and
all terms in one variable): `MonomialIndex` is the position of the first term with the exponents of the
given monomial, and `-1` if there is none.  The condition cannot be dropped, see `monomialIndex_false`. -/
theorem monomialIndex_partial {p : Poly R} {m : Mono R} (hp : p.Canon) (hm : m.Canon)
    (tp : ∀ t ∈ p.monos, t.degs ∈ flat) (tm : m.degs ∈ flat) :
    ∃ i, p.monomialIndex m = .ok i ∧ ((i = -1 ∧ ∀ t ∈ p.monos, t.degs ≠ m.degs) ∨
      ∃ n : ℕ, i = n ∧ (∃ t, p.monos[n]? = some t ∧ t.degs = m.degs) ∧
        ∀ j < n, ∀ t, p.monos[j]? = some t → t.degs ≠ m.degs) := by
  classical
  have hq : ∀ t ∈ p.monos, t.matchesFormOf m = .ok (decide (t.degs = m.degs)) := by
    intro t ht
    have hs := Mono.matches_shape (hp.all t ht).len hm.len
    rw [hs]
    congr 1
    rw [decide_eq_decide]
    constructor
    · intro h
      exact GoodM.degs_eq_of_matches (P := fun _ => True) rearrFree_flat
        ⟨hp.all t ht, fun _ _ => trivial, .inr (tp t ht)⟩ ⟨hm, fun _ _ => trivial, .inr tm⟩
        (by rw [hs]; simp [h])
    · exact shapeMatch_of_degs (hp.all t ht) hm (tp t ht)
  obtain ⟨i, h1, h2⟩ := monoIndexLoop_spec hq 0
  refine ⟨i, ?_, ?_⟩
  · unfold Poly.monomialIndex
    rw [hp.check, Go.ok_bind, hm.check, Go.ok_bind]
    exact h1
  · simpa using h2

/-- C52: `IsZero` of a monomial with as many exponents as factors: it denotes zero. -/
theorem isZero_iff {m : Mono R} (hm : m.exps.length = m.vars.length) :
    ∃ b, m.isZero = .ok b ∧ (b = true ↔ m.den = 0) := by
  refine ⟨decide (m.coeff = 0), ?_, ?_⟩
  · unfold Mono.isZero Mono.check
    simp [hm, Go.pure_eq, Go.ok_bind]
  · rw [decide_eq_true_eq]
    unfold Mono.den
    exact (monomial_eq_zero).symm

/-- C52: a vector of monomials that `IsConstant` accepts has constant entries. -/
theorem mvIsConstant_sound {l : List (Mono R)} (h : mvIsConstant l = .ok true) :
    ∀ m ∈ l, ∃ c, m.den = C c := by
  unfold mvIsConstant at h
  obtain ⟨_, -, h⟩ := Go.bind_eq_ok.mp h
  cases ha : l.all Mono.isConstant with
  | false => rw [ha] at h; cases h
  | true =>
    intro m hm
    have := List.all_eq_true.mp ha m hm
    exact ⟨m.coeff, Mono.den_of_vars_nil (by simpa [Mono.isConstant] using this)⟩

/-- C52: `IsConstant` of a monomial: it has no variable to a positive power. -/
theorem isConstantCall_iff {m : Mono R} (hm : m.Canon) :
    ∃ b, m.isConstantCall = .ok b ∧ (b = true ↔ m.degs = 0) := by
  refine ⟨m.isConstant, ?_, ?_⟩
  · unfold Mono.isConstantCall
    rw [hm.check]
    rfl
  · rw [hm.degs_eq_zero]
    simp [Mono.isConstant]

/-- C52: `IsConstant` of a monomial with as many exponents as factors, and of no other, returns. -/
theorem isConstantCall_total (m : Mono R) :
    (∃ b, m.isConstantCall = .ok b) ↔ m.exps.length = m.vars.length := by
  unfold Mono.isConstantCall Mono.check
  by_cases h : m.exps.length = m.vars.length
  · simp [h, Go.pure_eq, Go.ok_bind]
  · simp [h, Go.err_bind, Go.throw_eq]

/-- C52: `ConstantMonomialIndex` is the position of the first term without variables, or `-1` if there
is none. -/
theorem constantMonomialIndex_spec {p : Poly R} (hp : p.Canon) :
    ∃ i, p.constantMonomialIndex = .ok i ∧
      ((i = -1 ∧ ∀ m ∈ p.monos, m.degs ≠ 0) ∨
        ∃ (k : ℕ) (m : Mono R), i = k ∧ p.monos[k]? = some m ∧ m.degs = 0 ∧
          ∀ (j : ℕ) (n : Mono R), j < k → p.monos[j]? = some n → n.degs ≠ 0) := by
  have hc : ∀ m ∈ p.monos, (m.isConstant = true ↔ m.degs = 0) := fun m hm => by
    rw [(hp.2 m hm).degs_eq_zero]
    simp [Mono.isConstant]
  unfold Poly.constantMonomialIndex Poly.constantIndex
  rw [hp.check, Go.ok_bind]
  cases h : p.monos.findIdx? (·.isConstant) with
  | none =>
    refine ⟨-1, rfl, .inl ⟨rfl, fun m hm h0 => ?_⟩⟩
    have := List.findIdx?_eq_none_iff.mp h m hm
    rw [(hc m hm).mpr h0] at this
    cases this
  | some k =>
    obtain ⟨hk, h1, h2⟩ := List.findIdx?_eq_some_iff_getElem.mp h
    refine ⟨k, rfl, .inr ⟨k, p.monos[k], rfl, List.getElem?_eq_getElem hk,
      (hc _ (List.getElem_mem hk)).mp h1, fun j n hj hn h0 => ?_⟩⟩
    obtain ⟨hj', rfl⟩ := List.getElem?_eq_some_iff.mp hn
    exact h2 j hj ((hc _ (List.getElem_mem hj')).mpr h0)

end Value

/-! ## Counterexamples and examples -/

/-- The converse of `mvIsConstant_sound` is false: `0 * x` is a constant, but not for `IsConstant`. -/
theorem mvIsConstant_false : mvIsConstant [(⟨0, [1], [wv 0]⟩ : Mono ℚ)] = .ok false ∧
    Mono.den (⟨0, [1], [wv 0]⟩ : Mono ℚ) = C 0 := by
  refine ⟨by decide +kernel, by simp [Mono.den]⟩

/-- C52 is false for constant matrices that are not rectangular: a longer row loses its last entries,
a shorter one panics. -/
theorem kmConvert_false :
    kmToMonoMat [[1], [2, 3]] = .ok [[(⟨1, [], []⟩ : Mono ℚ)], [⟨2, [], []⟩]] ∧
    kmToPolyMat [[(1 : ℚ), 2], [3]] = .error .index := by
  constructor <;> decide +kernel

/-- C52 is false for terms that are not flat: `y^2*x` is found at the position of `x^2*y`, and
`x^2*y` written with the factors in the other order is not found. -/
theorem monomialIndex_false :
    Poly.monomialIndex (⟨[⟨1, [2, 1], [wv 0, wv 1]⟩]⟩ : Poly ℚ) ⟨1, [2, 1], [wv 1, wv 0]⟩ = .ok 0 ∧
    Poly.monomialIndex (⟨[⟨1, [2, 1], [wv 0, wv 1]⟩]⟩ : Poly ℚ) ⟨1, [1, 2], [wv 1, wv 0]⟩ = .ok (-1) := by
  constructor <;> decide +kernel

example : kvToPolyVec [(1 : ℚ), 2] = .ok [⟨[⟨1, [], []⟩]⟩, ⟨[⟨2, [], []⟩]⟩] := by decide +kernel
example : vvToPolyVec [(wv 0 : Var ℚ), wv 1] = .ok [⟨[⟨1, [1], [wv 0]⟩]⟩, ⟨[⟨1, [1], [wv 1]⟩]⟩] := by
  decide +kernel
example : Poly.constantMonomialIndex ⟨[wm1 2 0 1, wm0 5, wm0 6]⟩ = .ok 1 ∧
    Poly.constantMonomialIndex ⟨[wm1 2 0 1]⟩ = .ok (-1) ∧
    Mono.isConstantCall (wm0 5) = .ok true ∧ Mono.isConstantCall (wm1 0 0 1) = .ok false := by
  decide +kernel
example : identity 2 = .ok [[(1 : ℚ), 0], [0, 1]] := by decide +kernel
example : Poly.monomialIndex (⟨[⟨5, [], []⟩, ⟨1, [1, 1], [wv 0, wv 1]⟩]⟩ : Poly ℚ)
    ⟨7, [1, 1], [wv 1, wv 0]⟩ = .ok 1 := by decide +kernel
/-- The hypotheses of `monomialIndex_partial` hold for `5 + 2*x` and `7*x`, and the index is 1. -/
example : ∃ i, Poly.monomialIndex ⟨[wm0 5, wm1 2 0 1]⟩ (wm1 7 0 1) = .ok i ∧ i = 1 := by
  have hd : ∀ m ∈ [wm0 5, wm1 2 0 1], m.Canon ∧ m.degs ∈ flat := by
    intro m hm
    simp only [List.mem_cons, List.not_mem_nil, or_false] at hm
    rcases hm with rfl | rfl
    · exact ⟨wm0_canon 5, by rw [wm0_degs]; simp [flat]⟩
    · exact ⟨wm1_canon _ _ (by decide), degLE_two_flat (by rw [wm1_degs]; simp [degLE])⟩
  obtain ⟨i, h, -⟩ := monomialIndex_partial (p := ⟨[wm0 5, wm1 2 0 1]⟩) (m := wm1 7 0 1)
    ⟨by simp, fun m hm => (hd m hm).1⟩ (wm1_canon _ _ (by decide)) (fun m hm => (hd m hm).2)
    (degLE_two_flat (by rw [wm1_degs]; simp [degLE]))
  exact ⟨i, h, by
    have : Poly.monomialIndex ⟨[wm0 5, wm1 2 0 1]⟩ (wm1 7 0 1) = .ok 1 := by decide +kernel
    rw [this] at h; cases h; rfl⟩
example : variableIDs (Expr.v (.v [(wv 3 : Var ℚ), wv 1, wv 3])) = .ok [3, 1] := by decide +kernel
example : isSquare (Mat.v [[(wv 3 : Var ℚ), wv 1]]) = .ok false := by decide +kernel
example : pvIsConstantVector [(⟨[⟨5, [], []⟩]⟩ : Poly ℚ), ⟨[⟨5, [], []⟩, ⟨1, [1], [wv 0]⟩]⟩] = .ok false := by
  decide +kernel

end Verif
