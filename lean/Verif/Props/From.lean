import Verif.Model.From
import Verif.Props.ArithNeg

/-!
# C45: `getKVector.From` and `getKMatrix.From`

They keep the data of every accepted input; exactly which inputs panic is stated too.  Empty slices
are refused although empty dense values are accepted, so the claim "for all inputs of every supported
type and size" is false.
-/

set_option linter.unusedSectionVars false

namespace Verif

variable {R : Type} [GoNum R]

/-- The data of an input, and whether it has any. -/
def VecInput.data : VecInput R → Option (List R)
  | .kvector l => some l
  | .vecDense l => some l
  | .vecDensePtr l => l
  | .floats l => some l
  | .ints l => some (l.map GoNum.ofInt)
  | .other => none

/-- Slices of length zero. -/
def VecInput.EmptySlice : VecInput R → Prop
  | .floats l => l = []
  | .ints l => l = []
  | _ => False

theorem map_range_getD (l : List R) (d : R) : (List.range l.length).map (fun i => l.getD i d) = l := by
  apply List.ext_getElem (by simp)
  intro i h1 h2
  simp [List.getElem?_eq_getElem h2]

/-- C45 for vectors, exact: `From` returns the entries of the input in the same positions, or panics;
it panics exactly for empty slices, nil pointers and other types. -/
theorem kvectorFrom_spec (x : VecInput R) :
    (∀ l, kvectorFrom x = .ok l → x.data = some l) ∧
    ((∃ l, kvectorFrom x = .ok l) ↔ x.data ≠ none ∧ ¬ x.EmptySlice) := by
  have hv : ∀ l : List R, vecDenseToKVector l = l := fun l => map_range_getD l _
  have hf : ∀ l : List R, fromFloats l = if l = [] then .error .empty else .ok l := by
    intro l
    unfold fromFloats newVecDense
    split
    · rfl
    · show Except.ok (vecDenseToKVector l) = _
      rw [hv]
  cases x with
  | kvector l => exact ⟨fun l' h => by cases h; rfl, by simp [kvectorFrom, VecInput.data, VecInput.EmptySlice]⟩
  | vecDense l =>
    simp only [kvectorFrom, hv]
    exact ⟨fun l' h => by cases h; rfl, by simp [VecInput.data, VecInput.EmptySlice]⟩
  | vecDensePtr l =>
    cases l with
    | none => exact ⟨fun l' h => (by cases h), by simp [kvectorFrom, VecInput.data]⟩
    | some l =>
      simp only [kvectorFrom, hv]
      exact ⟨fun l' h => by cases h; rfl, by simp [VecInput.data, VecInput.EmptySlice]⟩
  | floats l =>
    simp only [kvectorFrom, hf]
    by_cases h : l = []
    · simp [h, VecInput.EmptySlice]
    · simp [h, VecInput.data, VecInput.EmptySlice]
  | ints l =>
    simp only [kvectorFrom, hf]
    by_cases h : l = []
    · simp [h, VecInput.EmptySlice]
    · simp [h, VecInput.data, VecInput.EmptySlice]
  | other => exact ⟨fun l' h => (by cases h), by simp [kvectorFrom, VecInput.data]⟩

/-- The entries of an input; `none` if there is no matrix. -/
def MatInput.data : MatInput R → Option (List (List R))
  | .kmatrix rows => some rows
  | .dense _ rows => some rows
  | .densePtr d => d.map (·.2)
  | .floats rows => some rows
  | .other => none

/-- Gonum's matrices are rectangular. -/
def MatInput.Rect : MatInput R → Prop
  | .dense c rows => ∀ row ∈ rows, row.length = c
  | .densePtr (some (c, rows)) => ∀ row ∈ rows, row.length = c
  | _ => True

/-- A slice of rows that is accepted: at least one row, all of the same length. -/
def MatInput.GoodSlice : MatInput R → Prop
  | .floats rows => ∃ c, rows ≠ [] ∧ ∀ row ∈ rows, row.length = c
  | _ => True

theorem denseToKMatrix_eq {c : ℕ} {rows : List (List R)} (h : ∀ row ∈ rows, row.length = c) :
    denseToKMatrix c rows = rows := by
  unfold denseToKMatrix
  apply List.ext_getElem (by simp)
  intro i h1 h2
  simp only [List.getElem_map, List.getElem_range]
  have h3 : rows.getD i [] = rows[i] := by
    rw [List.getD_eq_getElem?_getD, List.getElem?_eq_getElem h2, Option.getD_some]
  rw [h3, ← h rows[i] (List.getElem_mem h2)]
  exact map_range_getD _ _

theorem fromRows_ok {rows : List (List R)} {c : ℕ} (hne : rows ≠ [])
    (h : ∀ row ∈ rows, row.length = c) : fromRows rows = .ok rows := by
  obtain ⟨row0, rest, rfl⟩ := List.exists_cons_of_ne_nil hne
  unfold fromRows
  have h0 : row0.length = c := h row0 (by simp)
  have hall : List.forM (row0 :: rest)
      (fun row => if row.length ≠ row0.length then (throw .dimension : Go PUnit) else pure ()) = .ok () := by
    have : ∀ l : List (List R), (∀ row ∈ l, row.length = c) → List.forM l
        (fun row => if row.length ≠ row0.length then (throw .dimension : Go PUnit) else pure ()) = .ok () := by
      intro l
      induction l with
      | nil => exact fun _ => rfl
      | cons a l ih =>
        intro hl
        show ((if a.length ≠ row0.length then (throw .dimension : Go PUnit) else pure ()) >>= fun _ =>
          List.forM l (fun row => if row.length ≠ row0.length then (throw .dimension : Go PUnit) else pure ())) = _
        rw [if_neg (by rw [hl a (by simp), h0]; simp)]
        exact ih fun row hrow => hl row (by simp [hrow])
    exact this _ h
  simp only [hall, Go.ok_bind, List.map_id']
  rfl

theorem fromRows_inv {rows r : List (List R)} (h : fromRows rows = .ok r) :
    r = rows ∧ ∃ c, rows ≠ [] ∧ ∀ row ∈ rows, row.length = c := by
  cases rows with
  | nil => cases h
  | cons row0 rest =>
    unfold fromRows at h
    obtain ⟨u, h1, h2⟩ := Go.bind_eq_ok.mp h
    simp only [List.map_id', Go.pure_eq, Except.ok.injEq] at h2
    refine ⟨h2.symm, row0.length, by simp, ?_⟩
    have : ∀ l : List (List R), List.forM l
        (fun row => if row.length ≠ row0.length then (throw .dimension : Go PUnit) else pure ()) = .ok u →
        ∀ row ∈ l, row.length = row0.length := by
      intro l
      induction l with
      | nil => exact fun _ row hrow => (by cases hrow)
      | cons a l ih =>
        intro hl row hrow
        change ((if a.length ≠ row0.length then (throw .dimension : Go PUnit) else pure ()) >>= fun _ =>
          List.forM l (fun row => if row.length ≠ row0.length then (throw .dimension : Go PUnit) else pure ())) = _ at hl
        by_cases ha : a.length = row0.length
        · rw [if_neg (by simpa using ha)] at hl
          rcases List.mem_cons.mp hrow with rfl | hrow
          · exact ha
          · exact ih hl row hrow
        · rw [if_pos ha] at hl
          cases hl
    exact this _ h1

/-- C45 for matrices, exact: `From` returns the entries of the input in the same positions, or panics;
it panics exactly for slices without rows or with rows of different lengths, nil pointers and other
types. -/
theorem kmatrixFrom_spec {x : MatInput R} (hx : x.Rect) :
    (∀ rows, kmatrixFrom x = .ok rows → x.data = some rows) ∧
    ((∃ rows, kmatrixFrom x = .ok rows) ↔ x.data ≠ none ∧ x.GoodSlice) := by
  cases x with
  | kmatrix rows =>
    exact ⟨fun l' h => by cases h; rfl, by simp [kmatrixFrom, MatInput.data, MatInput.GoodSlice]⟩
  | dense c rows =>
    simp only [kmatrixFrom, denseToKMatrix_eq hx]
    exact ⟨fun l' h => by cases h; rfl, by simp [MatInput.data, MatInput.GoodSlice]⟩
  | densePtr d =>
    cases d with
    | none => exact ⟨fun l' h => (by cases h), by simp [kmatrixFrom, MatInput.data]⟩
    | some d =>
      obtain ⟨c, rows⟩ := d
      simp only [kmatrixFrom, denseToKMatrix_eq hx]
      exact ⟨fun l' h => by cases h; rfl, by simp [MatInput.data, MatInput.GoodSlice]⟩
  | floats rows =>
    simp only [kmatrixFrom]
    refine ⟨fun r h => by rw [(fromRows_inv h).1]; rfl, ?_⟩
    constructor
    · rintro ⟨r, h⟩
      exact ⟨by simp [MatInput.data], (fromRows_inv h).2⟩
    · rintro ⟨-, c, h1, h2⟩
      exact ⟨rows, fromRows_ok h1 h2⟩
  | other => exact ⟨fun l' h => (by cases h), by simp [kmatrixFrom, MatInput.data]⟩

/-- C45 is false for empty slices: they panic. -/
theorem from_empty_false : kvectorFrom (.floats ([] : List ℚ)) = .error .empty ∧
    kvectorFrom (.ints [] : VecInput ℚ) = .error .empty ∧
    kmatrixFrom (.floats ([] : List (List ℚ))) = .error .index ∧
    kvectorFrom (.vecDense ([] : List ℚ)) = .ok [] := by decide +kernel

/-! ## The hypotheses can be met -/

example : kvectorFrom (.ints [3, -1] : VecInput ℚ) = .ok [3, -1] := by decide +kernel

example : ∃ l, kvectorFrom (.ints [3, -1] : VecInput ℚ) = .ok l :=
  (kvectorFrom_spec _).2.mpr ⟨by simp [VecInput.data], by simp [VecInput.EmptySlice]⟩

example : ∃ rows, kmatrixFrom (.floats [[1, 2], [3, 4]] : MatInput ℚ) = .ok rows :=
  (kmatrixFrom_spec (x := .floats [[1, 2], [3, 4]]) trivial).2.mpr ⟨by simp [MatInput.data], 2, by simp, by simp⟩

example : ¬ ∃ rows, kmatrixFrom (.floats [[1, 2], [3]] : MatInput ℚ) = .ok rows := by
  rw [(kmatrixFrom_spec (x := .floats [[1, 2], [3]]) trivial).2]
  rintro ⟨-, c, -, h⟩
  have h1 := h [1, 2] (by simp)
  have h2 := h [3] (by simp)
  rw [← h1] at h2
  simp at h2

example : ∃ rows, kmatrixFrom (.dense 2 [[1, 2], [3, 4]] : MatInput ℚ) = .ok rows :=
  (kmatrixFrom_spec (by simp [MatInput.Rect])).2.mpr ⟨by simp [MatInput.data], trivial⟩

end Verif
