import Verif.Model.Errors
import Verif.Lemmas.Text
import Verif.Props.Args
import Verif.WitnessArray

/-!
# C67: error texts say what happened
-/

namespace Verif

variable {R : Type} {r c r' c' : ℕ}

/-! ## Specification: the texts -/

/-- Dimensions in parentheses. -/
def parenDims (d : ℕ × ℕ) : String := s!"({d.1},{d.2})"

/-- Dimensions in brackets. -/
def bracketDims (d : ℕ × ℕ) : String := s!"[{d.1} {d.2}]"

/-- The text for two operands of the given dimensions. -/
def dimMessage (op : String) (d d' : ℕ × ℕ) : String :=
  s!"dimension error: Cannot perform {op} between expression of dimension {parenDims d} and expression of dimension {parenDims d'}"

/-- The text for two vectors of the given lengths. -/
def lenMessage (op : String) (n m : ℕ) : String :=
  s!"vector dimension error: Cannot perform {op} between expression of dimension {n} and expression of dimension {m}"

/-- The text for one index of an object of the given type and dimensions. -/
def indexMessage (i : ℤ) (type : String) (d : ℕ × ℕ) : String :=
  s!"out of bounds error: index {i} is out of bounds for {type} object of dimension {bracketDims d}"

/-- The text for two indices of an object of the given type and dimensions. -/
def indexPairMessage (i j : ℤ) (type : String) (d : ℕ × ℕ) : String :=
  s!"out of bounds error: index ({i}, {j}) is out of bounds for {type} object of dimension {bracketDims d}"

/-- The text for a negative exponent. -/
def exponentMessage (n : ℤ) : String :=
  s!"received negative exponent ({n}); expected non-negative exponent"

/-- The text for a row of the wrong length. -/
def columnMessage (expected actual row : ℕ) : String :=
  s!"matrix column mismatch error: expected {expected} columns, received {actual} in row {row}"

/-! ## The texts -/

theorem nat_toList (n : ℕ) : (toString n).toList = Nat.toDigits 10 n := by
  show (Nat.repr n).toList = _
  simp [Nat.repr]

theorem intChars_nat (n : ℕ) : intChars n = (toString n).toList := by
  rw [nat_toList]
  unfold intChars
  simp

theorem intChars_toString (n : ℤ) : intChars n = (toString n).toList := by
  cases n with
  | ofNat n => exact intChars_nat n
  | negSucc n =>
    rw [intChars, if_pos (Int.negSucc_lt_zero n)]
    show '-' :: Nat.toDigits 10 (n + 1) = _
    rw [show toString (Int.negSucc n) = "-" ++ toString (n + 1) from rfl, String.toList_append, nat_toList]
    rfl

theorem toString_str (s : String) : toString s = s := rfl

theorem dimsString_eq (d : ℕ × ℕ) : dimsString d = (parenDims d).toList := by
  simp [dimsString, parenDims, joinLoop, intChars_nat]
  rfl

theorem dimsSlice_eq (d : ℕ × ℕ) : dimsSlice d = (bracketDims d).toList := by
  simp [dimsSlice, bracketDims, intChars_nat]
  rfl

theorem matrixDim_text {op : String} {a b : MatrixLike} {d d' : ℕ × ℕ} (ha : a.dims = .ok d)
    (hb : b.dims = .ok d') : (SmError.matrixDim op.toList a b).text = .ok (dimMessage op d d').toList := by
  unfold dimMessage
  dsimp only [SmError.text]
  rw [ha, hb]
  refine congrArg Except.ok ?_
  rw [dimsString_eq, dimsString_eq]
  simp only [toString_str, String.toList_append]

theorem vectorDim_text {op : String} {a b : Go ℕ} {n m : ℕ} (ha : a = .ok n) (hb : b = .ok m) :
    (SmError.vectorDim op.toList a b).text = .ok (lenMessage op n m).toList := by
  unfold lenMessage
  dsimp only [SmError.text]
  rw [ha, hb]
  refine congrArg Except.ok ?_
  rw [intChars_nat, intChars_nat]
  simp only [toString_str, String.toList_append]

theorem vecIndex_text {i : ℤ} {e : MatrixLike} {d : ℕ × ℕ} (h : e.dims = .ok d) :
    (SmError.vecIndex i e).text = .ok (indexMessage i (String.ofList e.goType) d).toList := by
  unfold indexMessage
  dsimp only [SmError.text]
  rw [h]
  refine congrArg Except.ok ?_
  rw [intChars_toString, dimsSlice_eq]
  simp only [toString_str, String.toList_append, String.toList_ofList]

theorem matIndex_text {i j : ℤ} {e : MatrixLike} {d : ℕ × ℕ} (h : e.dims = .ok d) :
    (SmError.matIndex i j e).text = .ok (indexPairMessage i j (String.ofList e.goType) d).toList := by
  unfold indexPairMessage
  dsimp only [SmError.text]
  rw [h]
  refine congrArg Except.ok ?_
  rw [intChars_toString, intChars_toString, dimsSlice_eq]
  simp only [toString_str, String.toList_append, String.toList_ofList]

theorem negExponent_text (n : ℤ) : (SmError.negExponent n).text = .ok (exponentMessage n).toList := by
  unfold exponentMessage
  dsimp only [SmError.text]
  refine congrArg Except.ok ?_
  rw [intChars_toString]
  simp only [toString_str, String.toList_append]

theorem columnMismatch_text (n m i : ℕ) :
    (SmError.columnMismatch n m i).text = .ok (columnMessage n m i).toList := by
  unfold columnMessage
  dsimp only [SmError.text]
  refine congrArg Except.ok ?_
  rw [intChars_nat, intChars_nat, intChars_nat]
  simp only [toString_str, String.toList_append]

/-! ## The texts can be read back -/

theorem last_split {α : Type} {x y x' y' : List α} {a : α} (h : x ++ a :: y = x' ++ a :: y') (hy : a ∉ y)
    (hy' : a ∉ y') : x = x' ∧ y = y' := by
  induction x generalizing x' with
  | nil =>
    cases x' with
    | nil => exact ⟨rfl, (List.cons.inj h).2⟩
    | cons b x' =>
      simp only [List.nil_append, List.cons_append, List.cons.injEq] at h
      exact absurd (by rw [h.2]; simp) hy
  | cons b x ih =>
    cases x' with
    | nil =>
      simp only [List.nil_append, List.cons_append, List.cons.injEq] at h
      exact absurd (by rw [← h.2]; simp) hy'
    | cons b' x' =>
      simp only [List.cons_append, List.cons.injEq] at h
      obtain ⟨h1, h2⟩ := ih h.2
      exact ⟨by rw [h.1, h1], h2⟩

theorem digits_not {n : ℕ} {a : Char} (ha : a.isDigit = false) : a ∉ Nat.toDigits 10 n := fun h => by
  rw [toDigits_digit h] at ha
  cases ha

theorem intChars_not {n : ℤ} {a : Char} (ha : isIntChar a = false) : a ∉ intChars n := fun h => by
  rw [intChars_all h] at ha
  cases ha

theorem digits_split {n m : ℕ} {a : Char} {t t' : List Char} (ha : a.isDigit = false)
    (h : Nat.toDigits 10 n ++ a :: t = Nat.toDigits 10 m ++ a :: t') : n = m ∧ t = t' := by
  obtain ⟨h1, h2⟩ := run_eq (p := Char.isDigit) (fun _ => toDigits_digit) (fun _ => toDigits_digit)
    (by simpa using ha) (by simpa using ha) h
  exact ⟨toDigits_inj h1, (List.cons.inj h2).2⟩

theorem ints_split {n m : ℤ} {a : Char} {t t' : List Char} (ha : isIntChar a = false)
    (h : intChars n ++ a :: t = intChars m ++ a :: t') : n = m ∧ t = t' := by
  obtain ⟨h1, h2⟩ := run_eq (p := isIntChar) (fun _ => intChars_all) (fun _ => intChars_all)
    (by simpa using ha) (by simpa using ha) h
  exact ⟨intChars_inj h1, (List.cons.inj h2).2⟩

theorem parenDims_toList (d : ℕ × ℕ) :
    (parenDims d).toList = '(' :: (Nat.toDigits 10 d.1 ++ ',' :: (Nat.toDigits 10 d.2 ++ [')'])) := by
  rw [← dimsString_eq]
  simp [dimsString, joinLoop, intChars_nat]

theorem bracketDims_toList (d : ℕ × ℕ) :
    (bracketDims d).toList = '[' :: (Nat.toDigits 10 d.1 ++ ' ' :: (Nat.toDigits 10 d.2 ++ [']'])) := by
  rw [← dimsSlice_eq]
  simp [dimsSlice, intChars_nat]

theorem parenDims_split {x x' : List Char} {d e : ℕ × ℕ}
    (h : x ++ (parenDims d).toList = x' ++ (parenDims e).toList) : x = x' ∧ d = e := by
  have hn : ∀ d : ℕ × ℕ, '(' ∉ Nat.toDigits 10 d.1 ++ ',' :: (Nat.toDigits 10 d.2 ++ [')']) := by
    intro d hd
    simp only [List.mem_append, List.mem_cons, List.not_mem_nil, or_false] at hd
    rcases hd with hd | hd | hd | hd
    · exact digits_not rfl hd
    · revert hd; decide
    · exact digits_not rfl hd
    · revert hd; decide
  rw [parenDims_toList, parenDims_toList] at h
  obtain ⟨h1, h2⟩ := last_split h (hn d) (hn e)
  obtain ⟨h3, h4⟩ := digits_split rfl h2
  obtain ⟨h5, -⟩ := digits_split rfl h4
  exact ⟨h1, Prod.ext h3 h5⟩

theorem bracketDims_split {x x' : List Char} {d e : ℕ × ℕ}
    (h : x ++ (bracketDims d).toList = x' ++ (bracketDims e).toList) : x = x' ∧ d = e := by
  have hn : ∀ d : ℕ × ℕ, '[' ∉ Nat.toDigits 10 d.1 ++ ' ' :: (Nat.toDigits 10 d.2 ++ [']']) := by
    intro d hd
    simp only [List.mem_append, List.mem_cons, List.not_mem_nil, or_false] at hd
    rcases hd with hd | hd | hd | hd
    · exact digits_not rfl hd
    · revert hd; decide
    · exact digits_not rfl hd
    · revert hd; decide
  rw [bracketDims_toList, bracketDims_toList] at h
  obtain ⟨h1, h2⟩ := last_split h (hn d) (hn e)
  obtain ⟨h3, h4⟩ := digits_split rfl h2
  obtain ⟨h5, -⟩ := digits_split rfl h4
  exact ⟨h1, Prod.ext h3 h5⟩

theorem dimText_inj {P M N op op' : List Char} {d d' e e' : ℕ × ℕ}
    (h : P ++ op ++ M ++ (parenDims d).toList ++ N ++ (parenDims d').toList =
      P ++ op' ++ M ++ (parenDims e).toList ++ N ++ (parenDims e').toList) : op = op' ∧ d = e ∧ d' = e' := by
  obtain ⟨h, h1⟩ := parenDims_split h
  obtain ⟨h, h2⟩ := parenDims_split (List.append_cancel_right h)
  exact ⟨List.append_cancel_left (List.append_cancel_right h), h2, h1⟩

theorem dimMessage_toList (op : String) (d d' : ℕ × ℕ) : (dimMessage op d d').toList =
    "dimension error: Cannot perform ".toList ++ op.toList ++ " between expression of dimension ".toList ++
      (parenDims d).toList ++ " and expression of dimension ".toList ++ (parenDims d').toList := by
  unfold dimMessage
  simp only [toString_str, String.toList_append]

/-- C67: the text of a dimension error determines the operation and the dimensions of both operands. -/
theorem dimMessage_inj {op op' : String} {d d' e e' : ℕ × ℕ} (h : dimMessage op d d' = dimMessage op' e e') :
    op = op' ∧ d = e ∧ d' = e' := by
  have h := congrArg String.toList h
  rw [dimMessage_toList, dimMessage_toList] at h
  obtain ⟨h1, h2⟩ := dimText_inj h
  exact ⟨String.toList_inj.mp h1, h2⟩

theorem lenText_inj {P M N op op' : List Char} {n m n' m' : ℕ}
    (h : P ++ op ++ (M ++ [' ']) ++ (toString n).toList ++ (N ++ [' ']) ++ (toString m).toList =
      P ++ op' ++ (M ++ [' ']) ++ (toString n').toList ++ (N ++ [' ']) ++ (toString m').toList) :
    op = op' ∧ n = n' ∧ m = m' := by
  simp only [nat_toList] at h
  have key : ∀ {x x' : List Char} {k k' : ℕ}, x ++ [' '] ++ Nat.toDigits 10 k = x' ++ [' '] ++ Nat.toDigits 10 k' →
      x = x' ∧ k = k' := by
    intro x x' k k' h
    rw [List.append_assoc, List.append_assoc] at h
    obtain ⟨h1, h2⟩ := last_split (a := ' ') h (digits_not rfl) (digits_not rfl)
    exact ⟨h1, toDigits_inj h2⟩
  rw [← List.append_assoc _ N, ← List.append_assoc _ N] at h
  obtain ⟨h, h1⟩ := key h
  replace h := List.append_cancel_right h
  rw [← List.append_assoc _ M, ← List.append_assoc _ M] at h
  obtain ⟨h, h2⟩ := key h
  exact ⟨List.append_cancel_left (List.append_cancel_right h), h2, h1⟩

/-- C67: the text of a dimension error of two vectors determines the operation and both lengths. -/
theorem lenMessage_inj {op op' : String} {n m n' m' : ℕ} (h : lenMessage op n m = lenMessage op' n' m') :
    op = op' ∧ n = n' ∧ m = m' := by
  have h := congrArg String.toList h
  have e : ∀ (op : String) (n m : ℕ), (lenMessage op n m).toList =
      "vector dimension error: Cannot perform ".toList ++ op.toList ++
        (" between expression of dimension".toList ++ [' ']) ++ (toString n).toList ++
        (" and expression of dimension".toList ++ [' ']) ++ (toString m).toList := by
    intro op n m
    unfold lenMessage
    simp only [toString_str, String.toList_append]
    rfl
  rw [e, e] at h
  obtain ⟨h1, h2⟩ := lenText_inj h
  exact ⟨String.toList_inj.mp h1, h2⟩

theorem indexText_inj {P M N : List Char} {i i' : ℤ} {t t' : List Char} {d d' : ℕ × ℕ}
    (hM : ∃ a L, M = a :: L ∧ isIntChar a = false)
    (h : P ++ intChars i ++ M ++ t ++ N ++ (bracketDims d).toList =
      P ++ intChars i' ++ M ++ t' ++ N ++ (bracketDims d').toList) :
    i = i' ∧ t = t' ∧ d = d' := by
  obtain ⟨a, L, rfl, ha⟩ := hM
  obtain ⟨h, h1⟩ := bracketDims_split h
  have h := List.append_cancel_right h
  simp only [List.append_assoc, List.cons_append] at h
  obtain ⟨h2, h3⟩ := ints_split ha (List.append_cancel_left h)
  exact ⟨h2, List.append_cancel_left h3, h1⟩

theorem indexMessage_toList (i : ℤ) (t : String) (d : ℕ × ℕ) : (indexMessage i t d).toList =
    "out of bounds error: index ".toList ++ intChars i ++ " is out of bounds for ".toList ++ t.toList ++
      " object of dimension ".toList ++ (bracketDims d).toList := by
  unfold indexMessage
  rw [intChars_toString]
  simp only [toString_str, String.toList_append]

/-- C67: the text of an index error determines the index, the type and the dimensions. -/
theorem indexMessage_inj {i i' : ℤ} {t t' : String} {d d' : ℕ × ℕ}
    (h : indexMessage i t d = indexMessage i' t' d') : i = i' ∧ t = t' ∧ d = d' := by
  have h := congrArg String.toList h
  rw [indexMessage_toList, indexMessage_toList] at h
  obtain ⟨h1, h2, h3⟩ := indexText_inj ⟨' ', _, rfl, rfl⟩ h
  exact ⟨h1, String.toList_inj.mp h2, h3⟩

theorem indexPairMessage_toList (i j : ℤ) (t : String) (d : ℕ × ℕ) : (indexPairMessage i j t d).toList =
    ("out of bounds error: index (".toList ++ intChars i ++ ", ".toList) ++ intChars j ++
      ") is out of bounds for ".toList ++ t.toList ++ " object of dimension ".toList ++ (bracketDims d).toList := by
  unfold indexPairMessage
  rw [intChars_toString, intChars_toString]
  simp only [toString_str, String.toList_append]

theorem pairText_inj {P M N K : List Char} {i i' j j' : ℤ} {t t' : List Char} {d d' : ℕ × ℕ}
    (hK : ∃ a L, K = a :: L ∧ isIntChar a = false) (hM : ∃ a L, M = a :: L ∧ isIntChar a = false)
    (h : (P ++ intChars i ++ K) ++ intChars j ++ M ++ t ++ N ++ (bracketDims d).toList =
      (P ++ intChars i' ++ K) ++ intChars j' ++ M ++ t' ++ N ++ (bracketDims d').toList) :
    i = i' ∧ j = j' ∧ t = t' ∧ d = d' := by
  obtain ⟨a, L, rfl, ha⟩ := hK
  obtain ⟨h, h1⟩ := bracketDims_split h
  have h := List.append_cancel_right h
  simp only [List.append_assoc, List.cons_append] at h
  obtain ⟨h2, h3⟩ := ints_split ha (List.append_cancel_left h)
  obtain ⟨b, L', rfl, hb⟩ := hM
  obtain ⟨h4, h5⟩ := ints_split hb (List.append_cancel_left h3)
  exact ⟨h2, h4, List.append_cancel_left h5, h1⟩

/-- C67: the text of an index error determines both indices, the type and the dimensions. -/
theorem indexPairMessage_inj {i i' j j' : ℤ} {t t' : String} {d d' : ℕ × ℕ}
    (h : indexPairMessage i j t d = indexPairMessage i' j' t' d') : i = i' ∧ j = j' ∧ t = t' ∧ d = d' := by
  have h := congrArg String.toList h
  rw [indexPairMessage_toList, indexPairMessage_toList] at h
  obtain ⟨h1, h2, h3, h4⟩ := pairText_inj ⟨',', _, rfl, rfl⟩ ⟨')', _, rfl, rfl⟩ h
  exact ⟨h1, h2, String.toList_inj.mp h3, h4⟩

/-- C67: the text of an exponent error determines the exponent. -/
theorem exponentMessage_inj {n m : ℤ} (h : exponentMessage n = exponentMessage m) : n = m := by
  have h := congrArg String.toList h
  have e : ∀ n, (exponentMessage n).toList = "received negative exponent (".toList ++ intChars n ++
      "); expected non-negative exponent".toList := fun n => by
    unfold exponentMessage
    rw [intChars_toString]
    simp only [toString_str, String.toList_append]
  rw [e, e] at h
  exact intChars_inj (List.append_cancel_left (List.append_cancel_right h))

theorem columnText_inj {P M N : List Char} {n m i n' m' i' : ℤ}
    (hM : ∃ a L, M = a :: L ∧ isIntChar a = false) (hN : ∃ a L, N = a :: L ∧ isIntChar a = false)
    (h : P ++ intChars n ++ M ++ intChars m ++ N ++ intChars i =
      P ++ intChars n' ++ M ++ intChars m' ++ N ++ intChars i') : n = n' ∧ m = m' ∧ i = i' := by
  obtain ⟨a, L, rfl, ha⟩ := hM
  obtain ⟨b, L', rfl, hb⟩ := hN
  simp only [List.append_assoc, List.cons_append] at h
  obtain ⟨h2, h3⟩ := ints_split ha (List.append_cancel_left h)
  obtain ⟨h4, h5⟩ := ints_split hb (List.append_cancel_left h3)
  exact ⟨h2, h4, intChars_inj (List.append_cancel_left h5)⟩

/-- C67: the text of a column error determines the expected and the actual number and the row. -/
theorem columnMessage_inj {n m i n' m' i' : ℕ} (h : columnMessage n m i = columnMessage n' m' i') :
    n = n' ∧ m = m' ∧ i = i' := by
  have h := congrArg String.toList h
  have e : ∀ n m i : ℕ, (columnMessage n m i).toList = "matrix column mismatch error: expected ".toList ++
      intChars n ++ " columns, received ".toList ++ intChars m ++ " in row ".toList ++ intChars i := fun n m i => by
    unfold columnMessage
    rw [intChars_nat, intChars_nat, intChars_nat]
    simp only [toString_str, String.toList_append]
  rw [e, e] at h
  obtain ⟨h1, h2, h3⟩ := columnText_inj ⟨' ', _, rfl, rfl⟩ ⟨' ', _, rfl, rfl⟩ h
  exact ⟨Int.ofNat.inj h1, Int.ofNat.inj h2, Int.ofNat.inj h3⟩

/-! ## The checks report exactly the incompatible operands -/

/-- Dimensions that `Plus`, `Minus` and comparisons accept. -/
def sumCompatible (d d' : ℕ × ℕ) : Prop := d = d' ∨ d = (1, 1) ∨ d' = (1, 1)

/-- Dimensions that `Multiply` accepts. -/
def productCompatible (d d' : ℕ × ℕ) : Prop := d.2 = d'.1 ∨ d = (1, 1) ∨ d' = (1, 1)

theorem scalar_dims_iff (d : ℕ × ℕ) : isScalarDims d = true ↔ d = (1, 1) := by simp [isScalarDims]

/-- The outcome of a check of two operands: nothing if they are compatible, otherwise an error whose
text names the operation and both dimensions. -/
def Reports (x : Go (Option SmError)) (compatible : Prop) (text : String) : Prop :=
  (compatible → x = .ok none) ∧ (¬ compatible → ∃ err, x = .ok (some err) ∧ err.text = .ok text.toList)

theorem reports_ite {P : Prop} [Decidable P] {C : Prop} {err : SmError} {text : String} (h : P ↔ C)
    (ht : err.text = .ok text.toList) :
    Reports (if P then pure none else pure (some err) : Go (Option SmError)) C text :=
  ⟨fun hc => by rw [if_pos (h.mpr hc)]; rfl, fun hc => ⟨err, by rw [if_neg (fun hp => hc (h.mp hp))]; rfl, ht⟩⟩

/-- C67: `CheckDimensionsInAddition`. -/
theorem additionError_reports {l r : MatrixLike} {d d' : ℕ × ℕ} (hl : l.dims = .ok d) (hr : r.dims = .ok d') :
    Reports (additionError l r) (sumCompatible d d') (dimMessage "Plus" d d') := by
  unfold additionError
  simp only [hl, hr, Go.ok_bind]
  exact reports_ite (by simp only [scalar_dims_iff, sumCompatible]) (matrixDim_text hl hr)

/-- C67: `CheckDimensionsInSubtraction`. -/
theorem subtractionError_reports {l r : MatrixLike} {d d' : ℕ × ℕ} (hl : l.dims = .ok d)
    (hr : r.dims = .ok d') :
    Reports (subtractionError l r) (sumCompatible d d') (dimMessage "Minus" d d') := by
  unfold subtractionError
  simp only [hl, hr, Go.ok_bind]
  exact reports_ite (by simp only [scalar_dims_iff, sumCompatible]) (matrixDim_text hl hr)

/-- C67: `CheckDimensionsInMultiplication`. -/
theorem multiplicationError_reports {l r : MatrixLike} {d d' : ℕ × ℕ} (hl : l.dims = .ok d)
    (hr : r.dims = .ok d') :
    Reports (multiplicationError l r) (productCompatible d d') (dimMessage "Multiply" d d') := by
  unfold multiplicationError
  simp only [hl, hr, Go.ok_bind]
  exact reports_ite (by simp only [scalar_dims_iff, productCompatible]) (matrixDim_text hl hr)

/-- C67: `CheckIndexOnVector`. -/
theorem vectorIndexError_reports {i : ℤ} {e : MatrixLike} {d : ℕ × ℕ} (h : e.dims = .ok d) :
    Reports (vectorIndexError i e) (0 ≤ i ∧ i < d.1) (indexMessage i (String.ofList e.goType) d) := by
  unfold vectorIndexError
  simp only [h, Go.ok_bind]
  refine ⟨fun hc => by rw [if_neg (by omega)]; rfl, fun hc => ⟨_, by rw [if_pos (by omega)]; rfl, vecIndex_text h⟩⟩

/-- C67: `CheckIndexOnMatrix`. -/
theorem matrixIndexError_reports {i j : ℤ} {e : MatrixLike} {d : ℕ × ℕ} (h : e.dims = .ok d) :
    Reports (matrixIndexError i j e) (0 ≤ i ∧ i < d.1 ∧ 0 ≤ j ∧ j < d.2)
      (indexPairMessage i j (String.ofList e.goType) d) := by
  unfold matrixIndexError
  simp only [h, Go.ok_bind]
  refine ⟨fun hc => by rw [if_neg (by omega), if_neg (by omega)]; rfl,
    fun hc => ⟨.matIndex i j e, ?_, matIndex_text h⟩⟩
  split
  · rfl
  · rw [if_pos (by omega)]; rfl

/-! ### Stacking -/

theorem neighboursError_none {op : List Char} {l : List (MatrixLike × ℕ)} :
    neighboursError op l = none ↔ ∀ i x y, l[i]? = some x → l[i + 1]? = some y → x.2 = y.2 := by
  induction l with
  | nil => simp [neighboursError]
  | cons a l ih =>
    cases l with
    | nil => simp [neighboursError]
    | cons b l =>
      unfold neighboursError
      split
      · rename_i hab
        rw [ih]
        refine ⟨fun h i x y hx hy => ?_, fun h i x y hx hy => h (i + 1) x y hx hy⟩
        cases i with
        | zero =>
          simp only [List.getElem?_cons_zero, Option.some.injEq, zero_add, List.getElem?_cons_succ] at hx hy
          rw [← hx, ← hy, hab]
        | succ i => exact h i x y hx hy
      · rename_i hab
        refine ⟨fun h => (Option.some_ne_none _ h).elim, fun h => absurd (h 0 a b rfl rfl).symm hab⟩

theorem neighboursError_some {op : List Char} {l : List (MatrixLike × ℕ)} {err : SmError}
    (h : neighboursError op l = some err) : ∃ i x y, l[i]? = some x ∧ l[i + 1]? = some y ∧ x.2 ≠ y.2 ∧
      (∀ k x' y', k < i → l[k]? = some x' → l[k + 1]? = some y' → x'.2 = y'.2) ∧
      err = .matrixDim op x.1 y.1 := by
  induction l with
  | nil => cases h
  | cons a l ih =>
    cases l with
    | nil => cases h
    | cons b l =>
      unfold neighboursError at h
      split at h
      · rename_i hab
        obtain ⟨i, x, y, h1, h2, h3, h4, h5⟩ := ih h
        refine ⟨i + 1, x, y, h1, h2, h3, fun k x' y' hk hx hy => ?_, h5⟩
        cases k with
        | zero =>
          simp only [List.getElem?_cons_zero, Option.some.injEq, zero_add, List.getElem?_cons_succ] at hx hy
          rw [← hx, ← hy, hab]
        | succ k => exact h4 k x' y' (by omega) hx hy
      · rename_i hab
        exact ⟨0, a, b, rfl, rfl, fun e => hab e.symm, fun k _ _ hk => by omega, (Option.some.inj h).symm⟩

theorem stackError_eq {es : List MatrixLike} {ds : List (ℕ × ℕ)} (h : es.mapM (·.dims) = .ok ds)
    (f : ℕ × ℕ → ℕ) : es.mapM (fun e => do return (e, f (← e.dims))) = .ok (es.zip (ds.map f)) := by
  induction es generalizing ds with
  | nil =>
    cases h
    rfl
  | cons e es ih =>
    rw [List.mapM_cons] at h
    obtain ⟨d, h1, h2⟩ := Go.bind_eq_ok.mp h
    obtain ⟨ds', h3, h4⟩ := Go.bind_eq_ok.mp h2
    cases h4
    rw [List.mapM_cons, ih h3, h1]
    rfl

/-- What a check of a stack reports: nothing if all sizes `f d` are equal, otherwise an error about the
first two neighbours whose sizes differ. -/
def ReportsFirst (x : Go (Option SmError)) (op : String) (ds : List (ℕ × ℕ)) (f : ℕ × ℕ → ℕ) : Prop :=
  (x = .ok none ↔ ∀ d ∈ ds, ∀ d' ∈ ds, f d = f d') ∧
  ∀ err, x = .ok (some err) → ∃ (i : ℕ) (d d' : ℕ × ℕ), ds[i]? = some d ∧ ds[i + 1]? = some d' ∧ f d ≠ f d' ∧
    (∀ e ∈ ds.take (i + 1), f e = f d) ∧ err.text = .ok (dimMessage op d d').toList

theorem neighbours_all {ds : List ℕ} (h : ∀ i x y, ds[i]? = some x → ds[i + 1]? = some y → x = y) :
    ∀ (i : ℕ) x y, ds[0]? = some x → ds[i]? = some y → y = x := by
  intro i
  induction i with
  | zero => intro x y hx hy; exact Option.some.inj (hy.symm.trans hx)
  | succ i ih =>
    intro x y hx hy
    obtain ⟨h1, -⟩ := List.getElem?_eq_some_iff.mp hy
    have h2 : ds[i]? = some ds[i] := List.getElem?_eq_getElem (by omega)
    exact (h i _ y h2 hy).symm.trans (ih x _ hx h2)

theorem mapM_dims_get {es : List MatrixLike} {ds : List (ℕ × ℕ)} (h : es.mapM (·.dims) = .ok ds) :
    es.length = ds.length ∧ ∀ (i : ℕ) e d, es[i]? = some e → ds[i]? = some d → e.dims = .ok d := by
  induction es generalizing ds with
  | nil =>
    cases h
    exact ⟨rfl, fun i e d he => by simp at he⟩
  | cons e es ih =>
    rw [List.mapM_cons] at h
    obtain ⟨d, h1, h2⟩ := Go.bind_eq_ok.mp h
    obtain ⟨ds', h3, h4⟩ := Go.bind_eq_ok.mp h2
    cases h4
    obtain ⟨h5, h6⟩ := ih h3
    refine ⟨by simp [h5], fun i e' d' he hd => ?_⟩
    cases i with
    | zero =>
      simp only [List.getElem?_cons_zero, Option.some.injEq] at he hd
      rw [← he, ← hd, h1]
    | succ i => exact h6 i e' d' he hd

theorem stack_reports {es : List MatrixLike} {ds : List (ℕ × ℕ)} (h : es.mapM (·.dims) = .ok ds)
    (f : ℕ × ℕ → ℕ) (op : String) :
    ReportsFirst (do
      let ns ← es.mapM (fun e => do return (e, f (← e.dims)))
      return neighboursError op.toList ns) op ds f := by
  obtain ⟨hl, hg⟩ := mapM_dims_get h
  rw [stackError_eq h f, Go.ok_bind]
  have hz : ∀ (i : ℕ) (x : MatrixLike × ℕ), (es.zip (ds.map f))[i]? = some x ↔
      ∃ d, es[i]? = some x.1 ∧ ds[i]? = some d ∧ f d = x.2 := by
    intro i x
    rw [List.getElem?_zip_eq_some, List.getElem?_map]
    simp only [Option.map_eq_some_iff]
    exact ⟨fun ⟨h1, d, h2, h3⟩ => ⟨d, h1, h2, h3⟩, fun ⟨d, h1, h2, h3⟩ => ⟨h1, d, h2, h3⟩⟩
  have he : ∀ (i : ℕ) d, ds[i]? = some d → ∃ e, es[i]? = some e := by
    intro i d hd
    obtain ⟨h1, -⟩ := List.getElem?_eq_some_iff.mp hd
    exact ⟨es[i], List.getElem?_eq_getElem (by omega)⟩
  constructor
  · show (Except.ok (neighboursError op.toList (es.zip (ds.map f))) : Go (Option SmError)) = .ok none ↔ _
    rw [Except.ok.injEq, neighboursError_none]
    constructor
    · intro hn
      have h1 : ∀ i x y, (ds.map f)[i]? = some x → (ds.map f)[i + 1]? = some y → x = y := by
        intro i x y hx hy
        rw [List.getElem?_map, Option.map_eq_some_iff] at hx hy
        obtain ⟨d, hx, rfl⟩ := hx
        obtain ⟨d', hy, rfl⟩ := hy
        obtain ⟨e, hE⟩ := he i d hx
        obtain ⟨e', hE'⟩ := he (i + 1) d' hy
        exact hn i (e, f d) (e', f d') ((hz _ _).mpr ⟨d, hE, hx, rfl⟩) ((hz _ _).mpr ⟨d', hE', hy, rfl⟩)
      intro d hd d' hd'
      obtain ⟨i, hi⟩ := List.mem_iff_getElem?.mp hd
      obtain ⟨j, hj⟩ := List.mem_iff_getElem?.mp hd'
      cases ds with
      | nil => simp at hd
      | cons d0 ds =>
        have h2 := neighbours_all h1
        rw [h2 i (f d0) (f d) rfl (by rw [List.getElem?_map, hi]; rfl),
          h2 j (f d0) (f d') rfl (by rw [List.getElem?_map, hj]; rfl)]
    · intro hn i x y hx hy
      obtain ⟨d, -, h1, h2⟩ := (hz _ _).mp hx
      obtain ⟨d', -, h3, h4⟩ := (hz _ _).mp hy
      rw [← h2, ← h4]
      exact hn d (List.mem_of_getElem? h1) d' (List.mem_of_getElem? h3)
  · intro err hx
    replace hx : (Except.ok (neighboursError op.toList (es.zip (ds.map f))) : Go (Option SmError)) = _ := hx
    rw [Except.ok.injEq] at hx
    obtain ⟨i, x, y, h1, h2, h3, h4, h5⟩ := neighboursError_some hx
    obtain ⟨d, h6, h7, h8⟩ := (hz _ _).mp h1
    obtain ⟨d', h9, h10, h11⟩ := (hz _ _).mp h2
    refine ⟨i, d, d', h7, h10, by rw [h8, h11]; exact h3, ?_, ?_⟩
    · have key : ∀ k, k ≤ i → ∀ e, ds[k]? = some e → f e = f d := by
        intro k hk
        induction hk using Nat.decreasingInduction with
        | self => intro e hE; rw [h7] at hE; rw [Option.some.inj hE]
        | of_succ k hk ih =>
          intro e hE
          obtain ⟨hlt, -⟩ := List.getElem?_eq_some_iff.mp h7
          have h12 : ds[k + 1]? = some ds[k + 1] := List.getElem?_eq_getElem (by omega)
          obtain ⟨m, hm⟩ := he k e hE
          obtain ⟨m', hm'⟩ := he (k + 1) _ h12
          rw [← ih _ h12]
          exact h4 k (m, f e) (m', f ds[k + 1]) hk ((hz _ _).mpr ⟨e, hm, hE, rfl⟩)
            ((hz _ _).mpr ⟨_, hm', h12, rfl⟩)
      intro e hE
      obtain ⟨k, hk⟩ := List.mem_iff_getElem?.mp hE
      have hk' : k < i + 1 := by
        by_contra hc
        rw [List.getElem?_take, if_neg hc] at hk
        cases hk
      rw [List.getElem?_take, if_pos hk'] at hk
      exact key k (by omega) e hk
    · rw [h5]
      exact matrixDim_text (hg i _ _ h6 h7) (hg (i + 1) _ _ h9 h10)

/-- C67: `CheckDimensionsInHStack` compares the numbers of rows. -/
theorem hstackError_reports {es : List MatrixLike} {ds : List (ℕ × ℕ)} (h : es.mapM (·.dims) = .ok ds) :
    ReportsFirst (hstackError es) "HStack" ds (·.1) := stack_reports h (·.1) "HStack"

/-- C67: `CheckDimensionsInVStack` compares the numbers of columns. -/
theorem vstackError_reports {es : List MatrixLike} {ds : List (ℕ × ℕ)} (h : es.mapM (·.dims) = .ok ds) :
    ReportsFirst (vstackError es) "VStack" ds (·.2) := stack_reports h (·.2) "VStack"

/-! ### Rows of a matrix -/

theorem columnsError_none {α : Type} {n i : ℕ} {rows : List (List α)} :
    columnsError n i rows = none ↔ ∀ row ∈ rows, row.length = n := by
  induction rows generalizing i with
  | nil => simp [columnsError]
  | cons row rows ih =>
    unfold columnsError
    split
    · rename_i h
      simp [h]
    · rename_i h
      rw [ih]
      simp only [ne_eq, not_not] at h
      simp [h]

theorem columnsError_some {α : Type} {n i : ℕ} {rows : List (List α)} {err : SmError}
    (h : columnsError n i rows = some err) : ∃ k row, rows[k]? = some row ∧ row.length ≠ n ∧
      (∀ row' ∈ rows.take k, row'.length = n) ∧ err = .columnMismatch n row.length (i + k) := by
  induction rows generalizing i with
  | nil => cases h
  | cons row rows ih =>
    unfold columnsError at h
    split at h
    · rename_i hn
      exact ⟨0, row, rfl, hn, by simp, (Option.some.inj h).symm⟩
    · rename_i hn
      simp only [ne_eq, not_not] at hn
      obtain ⟨k, row', h1, h2, h3, h4⟩ := ih h
      refine ⟨k + 1, row', h1, h2, ?_, by rw [h4]; congr 1; omega⟩
      intro r' hr'
      rw [List.take_succ_cons, List.mem_cons] at hr'
      rcases hr' with rfl | hr'
      · exact hn
      · exact h3 r' hr'

/-- C67: what the tests of the shape of a matrix report: nothing for a matrix with rows of equal
length, otherwise either that it has no rows or the first row whose length differs from that of row 0. -/
theorem rowsError_reports {α : Type} (e : MatrixLike) (rows : List (List α)) :
    (rowsError e rows = none ↔ rows ≠ [] ∧ ∀ row ∈ rows, ∀ row' ∈ rows, row.length = row'.length) ∧
    ∀ err, rowsError e rows = some err →
      (rows = [] ∧ err.text = .ok s!"empty matrix error: the matrix of type {String.ofList e.goType} is empty".toList) ∨
      ∃ row0 k row, rows[0]? = some row0 ∧ rows[k]? = some row ∧ row.length ≠ row0.length ∧
        (∀ row' ∈ rows.take k, row'.length = row0.length) ∧
        err.text = .ok (columnMessage row0.length row.length k).toList := by
  cases rows with
  | nil =>
    refine ⟨by simp [rowsError], fun err h => Or.inl ⟨rfl, ?_⟩⟩
    rw [← Option.some.inj h]
    dsimp only [SmError.text]
    refine congrArg Except.ok ?_
    simp only [toString_str, String.toList_append, String.toList_ofList]
  | cons row0 rows =>
    constructor
    · show columnsError row0.length 0 (row0 :: rows) = none ↔ _
      rw [columnsError_none]
      refine ⟨fun h => ⟨by simp, fun row hr row' hr' => (h row hr).trans (h row' hr').symm⟩,
        fun h row hr => h.2 row hr row0 (by simp)⟩
    · intro err h
      obtain ⟨k, row, h1, h2, h3, h4⟩ := columnsError_some (show columnsError row0.length 0 (row0 :: rows) = _ from h)
      refine Or.inr ⟨row0, k, row, rfl, h1, h2, h3, ?_⟩
      rw [h4, Nat.zero_add]
      exact columnMismatch_text _ _ _

/-! ## The operations

`plusError` and its siblings are the beginning of the methods, up to `panic(err)`.  For well formed
operands they report an error exactly when the method itself panics about dimensions, and the error is
the one whose text names the operation and the dimensions of both operands. -/

section
variable {S : Type} [GoNum S]

theorem checkDimAdd_error {d d' : ℕ × ℕ} (h : ¬ sumCompatible d d') :
    checkDimAdd d d' = .error .dimension := by
  unfold checkDimAdd
  rw [if_neg (fun hc => h (by simpa only [scalar_dims_iff, sumCompatible] using hc))]
  rfl

theorem checkDimMul_error {d d' : ℕ × ℕ} (h : ¬ productCompatible d d') :
    checkDimMul d d' = .error .dimension := by
  unfold checkDimMul
  rw [if_neg (fun hc => h (by simpa only [scalar_dims_iff, productCompatible] using hc))]
  rfl

theorem rowDims_of_mat {a : Mat S} (hc : a.check = .ok ()) {d : ℕ × ℕ} (h : a.dims = .ok d) :
    match a with
    | .k rows => rowDims rows = .ok d
    | .v rows => rowDims rows = .ok d
    | .m rows => rowDims rows = .ok d
    | .p rows => rowDims rows = .ok d := by
  unfold Mat.dims at h
  rw [hc, Go.ok_bind] at h
  cases a <;> exact h

/-- C67: the sum of a vector or matrix and an expression. -/
theorem plus_reports {a b : Expr S} (ha : a.Canon) (sa : a.Shape r c) (hr : 0 < r) (hb : b.Canon)
    (sb : b.Shape r' c') (hr' : 0 < r') (hn : ∀ x, a ≠ .s x) :
    Reports (a.plusError b) (sumCompatible (r, c) (r', c')) (dimMessage "Plus" (r, c) (r', c')) ∧
    (¬ sumCompatible (r, c) (r', c') → a.plus b = .error .dimension) := by
  obtain ⟨c1, d1⟩ := nice_check ha sa hr
  obtain ⟨c2, d2⟩ := nice_check hb sb hr'
  refine ⟨?_, fun h => ?_⟩
  · unfold Expr.plusError
    rw [c1, Go.ok_bind, c2, Go.ok_bind]
    exact additionError_reports d1 d2
  · have hd := checkDimAdd_error h
    cases a with
    | s x => exact absurd rfl (hn x)
    | v a => exact Vec.plus_dims_error ha sa hr c2 d2 (show a.dims = _ from d1) hd
    | m a =>
      have h1 := rowDims_of_mat (show a.check = .ok () from c1) (show a.dims = _ from d1)
      cases a with
      | k rows =>
        show kmPlus rows b = _
        unfold kmPlus
        simp only [c2, h1, d2, hd, Go.ok_bind, Go.err_bind]
      | v rows =>
        show vmPlus rows b = _
        unfold vmPlus
        simp only [show Mat.check (.v rows) = .ok () from c1, c2, h1, d2, hd, Go.ok_bind, Go.err_bind]
      | m rows =>
        show mmPlus rows b = _
        unfold mmPlus
        simp only [show Mat.check (.m rows) = .ok () from c1, c2, h1, d2, hd, Go.ok_bind, Go.err_bind]
      | p rows =>
        show pmPlus rows b = _
        unfold pmPlus
        simp only [show Mat.check (.p rows) = .ok () from c1, c2, h1, d2, hd, Go.ok_bind, Go.err_bind]

/-- C67: the difference of a vector or matrix and an expression. -/
theorem minus_reports {a b : Expr S} (ha : a.Canon) (sa : a.Shape r c) (hr : 0 < r) (hb : b.Canon)
    (sb : b.Shape r' c') (hr' : 0 < r') (hn : ∀ x, a ≠ .s x) :
    Reports (a.minusError b) (sumCompatible (r, c) (r', c')) (dimMessage "Minus" (r, c) (r', c')) ∧
    (¬ sumCompatible (r, c) (r', c') → a.minus b = .error .dimension) := by
  obtain ⟨c1, d1⟩ := nice_check ha sa hr
  obtain ⟨c2, d2⟩ := nice_check hb sb hr'
  refine ⟨?_, fun h => ?_⟩
  · unfold Expr.minusError
    rw [c1, Go.ok_bind, c2, Go.ok_bind]
    exact subtractionError_reports d1 d2
  · have hd := checkDimAdd_error h
    cases a with
    | s x => exact absurd rfl (hn x)
    | v a =>
      cases a with
      | k l =>
        have hl : (r, c) = (l.length, 1) := (Except.ok.inj d1).symm
        rw [hl] at hd
        simp only [Expr.minus, c2, d2, hd, Go.ok_bind, Go.err_bind]
      | v l => simp only [Expr.minus, c1, c2, d1, d2, hd, Go.ok_bind, Go.err_bind]
      | m l => simp only [Expr.minus, c1, c2, d1, d2, hd, Go.ok_bind, Go.err_bind]
      | p l => simp only [Expr.minus, c1, c2, d1, d2, hd, Go.ok_bind, Go.err_bind]
    | m a => simp only [Expr.minus, c1, c2, d1, d2, hd, Go.ok_bind, Go.err_bind]

/-- C67: the product of a vector or matrix and an expression. -/
theorem mul_reports {a b : Expr S} (ha : a.Canon) (sa : a.Shape r c) (hr : 0 < r) (hb : b.Canon)
    (sb : b.Shape r' c') (hr' : 0 < r') (hn : ∀ x, a ≠ .s x) :
    Reports (a.mulError b) (productCompatible (r, c) (r', c')) (dimMessage "Multiply" (r, c) (r', c')) ∧
    (¬ productCompatible (r, c) (r', c') → a.mul b = .error .dimension) := by
  obtain ⟨c1, d1⟩ := nice_check ha sa hr
  obtain ⟨c2, d2⟩ := nice_check hb sb hr'
  refine ⟨?_, fun h => ?_⟩
  · unfold Expr.mulError
    rw [c1, Go.ok_bind, c2, Go.ok_bind]
    exact multiplicationError_reports d1 d2
  · have hd := checkDimMul_error h
    cases a with
    | s x => exact absurd rfl (hn x)
    | v a =>
      replace c1 : a.check = .ok () := c1
      replace d1 : a.dims = .ok (r, c) := d1
      cases b with
      | s b =>
        have hs : (r', c') = (1, 1) := (Except.ok.inj d2).symm
        exact absurd (Or.inr (Or.inr hs)) h
      | v b =>
        replace c2 : b.check = .ok () := c2
        replace d2 : b.dims = .ok (r', c') := d2
        simp only [Expr.mul, Vec.mul, c1, c2, d1, d2, hd, Go.ok_bind, Go.err_bind]
      | m b =>
        replace c2 : b.check = .ok () := c2
        replace d2 : b.dims = .ok (r', c') := d2
        simp only [Expr.mul, Vec.mul, c1, c2, d1, d2, hd, Go.ok_bind, Go.err_bind]
    | m a =>
      have h1 := rowDims_of_mat (show a.check = .ok () from c1) (show a.dims = _ from d1)
      cases a with
      | k rows =>
        show kmMul rows b = _
        unfold kmMul
        simp only [show Mat.check (.k rows) = .ok () from c1, c2, h1, d2, hd, Go.ok_bind, Go.err_bind]
      | v rows =>
        show vmMul rows b = _
        unfold vmMul
        simp only [show Mat.check (.v rows) = .ok () from c1, c2, h1, d2, hd, Go.ok_bind, Go.err_bind]
      | m rows =>
        show mmMul rows b = _
        unfold mmMul
        simp only [show Mat.check (.m rows) = .ok () from c1, c2, h1, d2, hd, Go.ok_bind, Go.err_bind]
      | p rows =>
        show pmMul rows b = _
        unfold pmMul
        simp only [show Mat.check (.p rows) = .ok () from c1, c2, h1, d2, hd, Go.ok_bind, Go.err_bind]

/-- C67: the product of two matrices of which one has a single entry passes the test of `Multiply` and is
then rejected by `MatrixMultiplyTemplate`, unless the inner dimensions agree; the error names the
template. -/
theorem mulTemplate_reports {a b : Mat S} (ha : (Expr.m a).Canon) (sa : (Expr.m a).Shape r c) (hr : 0 < r)
    (hb : (Expr.m b).Canon) (sb : (Expr.m b).Shape r' c') (hr' : 0 < r') :
    Reports (mulTemplateError a b) (c = r') (dimMessage "MatrixMultiplyTemplate" (r, c) (r', c')) ∧
    (c ≠ r' → matMulTemplate a b = .error .dimension ∧ (Expr.m a).mul (.m b) = .error .dimension) := by
  obtain ⟨c1, d1⟩ := nice_check ha sa hr
  obtain ⟨c2, d2⟩ := nice_check hb sb hr'
  have c1' : a.check = .ok () := c1
  have d1' : a.dims = .ok (r, c) := d1
  have c2' : b.check = .ok () := c2
  have d2' : b.dims = .ok (r', c') := d2
  refine ⟨?_, fun h => ?_⟩
  · unfold mulTemplateError
    simp only [d1', d2', Go.ok_bind]
    exact ⟨fun h => by rw [if_neg (fun hc => hc h)]; rfl,
      fun h => ⟨_, by rw [if_pos h]; rfl, matrixDim_text (a := (Expr.m a).like) (b := (Expr.m b).like) d1 d2⟩⟩
  · have ht : matMulTemplate a b = .error .dimension := by
      unfold matMulTemplate
      simp only [c1', c2', d1', d2', Go.ok_bind]
      rw [if_pos h]
      rfl
    refine ⟨ht, ?_⟩
    by_cases hp : productCompatible (r, c) (r', c')
    · have hd : checkDimMul (r, c) (r', c') = .ok () := by
        unfold checkDimMul
        rw [if_pos (by simpa only [scalar_dims_iff, productCompatible] using hp)]
        rfl
      have h1 := rowDims_of_mat c1' d1'
      cases a with
      | k rows =>
        show kmMul rows (.m b) = _
        unfold kmMul
        simp only [c2, h1, d2, hd, ht, Go.ok_bind, Go.err_bind]
      | v rows =>
        show vmMul rows (.m b) = _
        unfold vmMul
        simp only [c1', c2, h1, d2, hd, ht, Go.ok_bind, Go.err_bind]
      | m rows =>
        show mmMul rows (.m b) = _
        unfold mmMul
        simp only [c1', c2, h1, d2, hd, ht, Go.ok_bind, Go.err_bind]
      | p rows =>
        show pmMul rows (.m b) = _
        unfold pmMul
        simp only [c1', c2, h1, d2, hd, ht, Go.ok_bind, Go.err_bind]
    · exact (mul_reports ha sa hr hb sb hr' (by intro x h; cases h)).2 hp

/-- C67: the test of `MatrixPlusTemplate`. -/
theorem plusTemplate_reports {a b : Mat S} (ha : (Expr.m a).Canon) (sa : (Expr.m a).Shape r c) (hr : 0 < r)
    (hb : (Expr.m b).Canon) (sb : (Expr.m b).Shape r' c') (hr' : 0 < r') :
    Reports (plusTemplateError a b) ((r, c) = (r', c')) (dimMessage "MatrixPlusTemplate" (r, c) (r', c')) ∧
    ((r, c) ≠ (r', c') → matPlusTemplate a b = .error .dimension) := by
  obtain ⟨c1, d1⟩ := nice_check ha sa hr
  obtain ⟨c2, d2⟩ := nice_check hb sb hr'
  have c1' : a.check = .ok () := c1
  have d1' : a.dims = .ok (r, c) := d1
  have c2' : b.check = .ok () := c2
  have d2' : b.dims = .ok (r', c') := d2
  refine ⟨?_, fun h => ?_⟩
  · unfold plusTemplateError
    simp only [d1', d2', Go.ok_bind]
    exact ⟨fun h => by rw [if_neg (by simpa using h)]; rfl,
      fun h => ⟨_, by rw [if_pos (by simp only [Prod.mk.injEq] at h; tauto)]; rfl,
        matrixDim_text (a := (Expr.m a).like) (b := (Expr.m b).like) d1 d2⟩⟩
  · unfold matPlusTemplate
    simp only [c1', c2', d1', d2', Go.ok_bind]
    rw [if_pos h]
    rfl

/-- The sign of a comparison as it is written in an error. -/
def senseSign : Sense → String
  | .eq => "="
  | .le => "<="
  | .ge => ">="
  | .bad _ => ""

/-- C67: the comparison of a vector or matrix and an expression; an expression of a scalar type is
always accepted by the test, a vector or matrix with one entry is not. -/
theorem comparison_reports {a b : Expr S} (ha : a.Canon) (sa : a.Shape r c) (hr : 0 < r) (hb : b.Canon)
    (sb : b.Shape r' c') (hr' : 0 < r') (hn : ∀ x, a ≠ .s x) {sense : Sense}
    (hs : sense = .eq ∨ sense = .le ∨ sense = .ge) :
    Reports (a.comparisonError b sense) ((r, c) = (r', c') ∨ ∃ x, b = .s x)
      (dimMessage s!"Comparison ({senseSign sense})" (r, c) (r', c')) ∧
    (¬ ((r, c) = (r', c') ∨ ∃ x, b = .s x) → a.comparison b sense = .error .dimension) := by
  obtain ⟨c1, d1⟩ := nice_check ha sa hr
  obtain ⟨c2, d2⟩ := nice_check hb sb hr'
  have hS : ∀ e : Expr S, e.isScalarType = true ↔ ∃ x, e = .s x := by
    intro e
    cases e <;> simp [Expr.isScalarType]
  have hP : ((r, c) = (r', c') ∨ a.isScalarType = true ∨ b.isScalarType = true) ↔
      ((r, c) = (r', c') ∨ ∃ x, b = .s x) := by
    rw [hS, hS]
    exact ⟨fun h => h.imp id (fun h => h.elim (fun ⟨x, hx⟩ => absurd hx (hn x)) id), fun h => h.imp id Or.inr⟩
  have hsign : sense.chars = .ok (senseSign sense).toList := by
    rcases hs with rfl | rfl | rfl <;> rfl
  refine ⟨?_, fun h => ?_⟩
  · unfold Expr.comparisonError Expr.compareError
    simp only [c1, c2, d1, d2, Go.ok_bind, hsign]
    refine reports_ite hP ?_
    have := matrixDim_text (a := a.like) (b := b.like) (op := s!"Comparison ({senseSign sense})") d1 d2
    rw [← this]
    simp [toString_str, String.toList_append]
  · have hd : checkDimCompare a b = .error .dimension := by
      unfold checkDimCompare
      simp only [d1, d2, Go.ok_bind]
      rw [if_neg (fun hc => h (hP.mp hc))]
      rfl
    cases a with
    | s x => exact absurd rfl (hn x)
    | v a =>
      simp only [Expr.comparison, Vec.comparison, show a.check = .ok () from c1, c2, hd, Go.ok_bind, Go.err_bind]
    | m a =>
      simp only [Expr.comparison, Mat.comparison, show a.check = .ok () from c1, c2, hd, Go.ok_bind, Go.err_bind]

/-- The Go type of an expression, from what its entries are and how they are arranged. -/
def typeName (e : Expr S) : String :=
  "symbolic." ++
  (match e with
    | .s (.k _) | .v (.k _) | .m (.k _) => "K"
    | .s (.var _) | .v (.v _) | .m (.v _) => "Variable"
    | .s (.mono _) | .v (.m _) | .m (.m _) => "Monomial"
    | .s (.poly _) | .v (.p _) | .m (.p _) => "Polynomial") ++
  (match e with
    | .s _ => ""
    | .v _ => "Vector"
    | .m _ => "Matrix")

theorem like_goType (e : Expr S) : String.ofList e.like.goType = typeName e := by
  rcases e with a | a | a <;> cases a <;> (apply String.toList_inj.mp; rw [String.toList_ofList]; rfl)

/-- C67: `smErrors.CheckDimensionsInComparison` of any two objects.  Objects of the same dimensions pass, and
so does an object of dimensions (1,1) with any other.  Two columns are reported with their lengths, other
objects with their dimensions (and the bare sign as the operation).  Two columns one of which is not a vector
type make the type assertion fail. -/
theorem comparisonError_reports {a b : MatrixLike} {r c r' c' : ℕ} (ha : a.dims = .ok (r, c))
    (hb : b.dims = .ok (r', c')) (sign : String) :
    (((r, c) = (r', c') ∨ (r, c) = (1, 1) ∨ (r', c') = (1, 1)) →
      comparisonError a b sign.toList = .ok none) ∧
    (¬ ((r, c) = (r', c') ∨ (r, c) = (1, 1) ∨ (r', c') = (1, 1)) →
      (c = 1 → c' = 1 → ∀ n m, a.len = some (.ok n) → b.len = some (.ok m) →
        ∃ err, comparisonError a b sign.toList = .ok (some err) ∧
          err.text = .ok (lenMessage s!"Comparison ({sign})" n m).toList) ∧
      (c = 1 → c' = 1 → (a.len = none ∨ b.len = none) →
        comparisonError a b sign.toList = .error .typeAssert) ∧
      (¬ (c = 1 ∧ c' = 1) → ∃ err, comparisonError a b sign.toList = .ok (some err) ∧
        err.text = .ok (dimMessage sign (r, c) (r', c')).toList)) := by
  have hP : ((r, c) = (r', c') ∨ isScalarDims (r, c) = true ∨ isScalarDims (r', c') = true) ↔
      ((r, c) = (r', c') ∨ (r, c) = (1, 1) ∨ (r', c') = (1, 1)) := by
    simp [isScalarDims]
  unfold comparisonError
  simp only [ha, hb, Go.ok_bind]
  refine ⟨fun h => by rw [if_pos (hP.mpr h)]; rfl, fun h => ?_⟩
  rw [if_neg (fun hc => h (hP.mp hc))]
  refine ⟨fun h1 h2 n m hn hm => ?_, fun h1 h2 hl => ?_, fun h1 => ?_⟩
  · rw [if_pos ⟨h1, h2⟩, hn, hm]
    refine ⟨_, rfl, ?_⟩
    have := vectorDim_text (op := s!"Comparison ({sign})") (rfl : (Except.ok n : Go ℕ) = .ok n)
      (rfl : (Except.ok m : Go ℕ) = .ok m)
    rw [← this]
    simp [toString_str, String.toList_append]
  · rw [if_pos ⟨h1, h2⟩]
    rcases hl with hl | hl
    · rw [hl]; rfl
    · rw [hl]; cases a.len <;> rfl
  · rw [if_neg h1]
    exact ⟨_, rfl, matrixDim_text ha hb⟩

/-- C67: a vector constraint between vectors of different lengths, neither of length one, is rejected by
`Check` with an error that names the sense and both lengths; the type assertion to a vector does not
fail. -/
theorem vcon_reports {k : VCon S} {n m : ℕ} (ha : (Expr.v k.lhs).Canon) (sa : (Expr.v k.lhs).Shape n 1)
    (hn : 0 < n) (hb : (Expr.v k.rhs).Canon) (sb : (Expr.v k.rhs).Shape m 1) (hm : 0 < m)
    (hs : k.sense = .eq ∨ k.sense = .le ∨ k.sense = .ge) :
    Reports k.dimError (n = m ∨ n = 1 ∨ m = 1) (lenMessage s!"Comparison ({senseSign k.sense})" n m) ∧
    (¬ (n = m ∨ n = 1 ∨ m = 1) → k.check = .error .dimension) := by
  obtain ⟨c1, d1⟩ := nice_check ha sa hn
  obtain ⟨c2, d2⟩ := nice_check hb sb hm
  have hlen : ∀ {a : Vec S} {n : ℕ}, a.dims = .ok (n, 1) → a.len = .ok n := by
    intro a n h
    unfold Vec.dims at h
    obtain ⟨l, h1, h2⟩ := Go.bind_eq_ok.mp h
    cases h2
    exact h1
  have hsign : k.sense.chars = .ok (senseSign k.sense).toList := by
    rcases hs with h | h | h <;> rw [h] <;> rfl
  have hP : ((n, 1) = (m, 1) ∨ isScalarDims (n, 1) = true ∨ isScalarDims (m, 1) = true) ↔
      (n = m ∨ n = 1 ∨ m = 1) := by
    simp [isScalarDims]
  refine ⟨?_, fun h => ?_⟩
  · unfold VCon.dimError Verif.comparisonError
    simp only [hsign, Go.ok_bind, show (Expr.v k.lhs).like.dims = .ok (n, 1) from d1,
      show (Expr.v k.rhs).like.dims = .ok (m, 1) from d2, and_self, if_true]
    refine reports_ite hP ?_
    have := vectorDim_text (op := s!"Comparison ({senseSign k.sense})")
      (hlen (show k.lhs.dims = _ from d1)) (hlen (show k.rhs.dims = _ from d2))
    rw [← this]
    simp [toString_str, String.toList_append]
  · have hsc : k.sense.check = .ok () := by
      rcases hs with h | h | h <;> rw [h] <;> rfl
    unfold VCon.check
    rw [show k.lhs.check = .ok () from c1, Go.ok_bind, show k.rhs.check = .ok () from c2, Go.ok_bind, hsc,
      Go.ok_bind, show k.lhs.dims = _ from d1, Go.ok_bind, show k.rhs.dims = _ from d2, Go.ok_bind]
    unfold checkDimAdd
    rw [if_neg (fun hc => h (hP.mp hc))]
    rfl

/-- C67: a list of well formed expressions that are put side by side: if the numbers of rows differ,
`HStack` panics about dimensions, and `CheckDimensionsInHStack` returns an error about the first two
neighbours that differ. -/
theorem stack_dims {es : List (Expr S)} (h : ∀ e ∈ es, e.Nice) :
    ∃ ds, es.mapM Expr.dims = .ok ds ∧ (es.map Expr.like).mapM (·.dims) = .ok ds := by
  induction es with
  | nil => exact ⟨[], rfl, rfl⟩
  | cons e es ih =>
    obtain ⟨ds, h1, h2⟩ := ih fun e' he' => h e' (List.mem_cons_of_mem _ he')
    obtain ⟨hc, r, c, hr, -, hs⟩ := h e (by simp)
    have hd := (nice_check hc hs hr).2
    refine ⟨(r, c) :: ds, ?_, ?_⟩
    · rw [List.mapM_cons, hd, Go.ok_bind, h1]
      rfl
    · rw [List.map_cons, List.mapM_cons, show e.like.dims = .ok (r, c) from hd, Go.ok_bind, h2]
      rfl

theorem checkNeighbours_error {l : List ℕ} (h : ∃ x ∈ l, ∃ y ∈ l, x ≠ y) :
    checkNeighbours l = .error .dimension := by
  induction l with
  | nil =>
    obtain ⟨x, hx, -⟩ := h
    simp at hx
  | cons a l ih =>
    cases l with
    | nil =>
      obtain ⟨x, hx, y, hy, hxy⟩ := h
      simp only [List.mem_singleton] at hx hy
      exact absurd (hx.trans hy.symm) hxy
    | cons b l =>
      unfold checkNeighbours
      split
      · rename_i hab
        apply ih
        obtain ⟨x, hx, y, hy, hxy⟩ := h
        have key : ∀ z ∈ a :: b :: l, z ∈ b :: l := by
          intro z hz
          rcases List.mem_cons.mp hz with rfl | hz
          · rw [← hab]; simp
          · exact hz
        exact ⟨x, key x hx, y, key y hy, hxy⟩
      · rfl

/-- C67: `HStack` of well formed expressions. -/
theorem hstack_reports {es : List (Expr S)} (h : ∀ e ∈ es, e.Nice) :
    ∃ ds, es.mapM Expr.dims = .ok ds ∧ ReportsFirst (hstackError (es.map Expr.like)) "HStack" ds (·.1) ∧
      ((∃ d ∈ ds, ∃ d' ∈ ds, d.1 ≠ d'.1) → hstack es = .error .dimension) := by
  obtain ⟨ds, h1, h2⟩ := stack_dims h
  refine ⟨ds, h1, hstackError_reports h2, fun ⟨d, hd, d', hd', hne⟩ => ?_⟩
  unfold hstack
  have h0 : es ≠ [] := by
    rintro rfl
    cases h1
    simp at hd
  rw [if_neg h0]
  simp only [h1, Go.ok_bind]
  rw [checkNeighbours_error ⟨d.1, List.mem_map_of_mem hd, d'.1, List.mem_map_of_mem hd', hne⟩]
  rfl

/-- C67: `VStack` of well formed expressions. -/
theorem vstack_reports {es : List (Expr S)} (h : ∀ e ∈ es, e.Nice) :
    ∃ ds, es.mapM Expr.dims = .ok ds ∧ ReportsFirst (vstackError (es.map Expr.like)) "VStack" ds (·.2) ∧
      ((∃ d ∈ ds, ∃ d' ∈ ds, d.2 ≠ d'.2) → vstack es = .error .dimension) := by
  obtain ⟨ds, h1, h2⟩ := stack_dims h
  refine ⟨ds, h1, vstackError_reports h2, fun ⟨d, hd, d', hd', hne⟩ => ?_⟩
  unfold vstack
  have h0 : es ≠ [] := by
    rintro rfl
    cases h1
    simp at hd
  rw [if_neg h0]
  simp only [h1, Go.ok_bind]
  rw [checkNeighbours_error ⟨d.2, List.mem_map_of_mem hd, d'.2, List.mem_map_of_mem hd', hne⟩]
  rfl

/-- C67: `At` of a scalar, a vector or a matrix of polynomials outside its bounds panics with an index
error; the error the check returns names the indices, the type and the dimensions. -/
theorem at_reports {e : Expr S} (he : e.Canon) (se : e.Shape r c) (hr : 0 < r)
    (hk : match e with | .m (.p _) => True | .m _ => False | _ => True) (i j : ℤ) :
    Reports (matrixIndexError i j e.like) (0 ≤ i ∧ i < r ∧ 0 ≤ j ∧ j < c)
      (indexPairMessage i j (typeName e) (r, c)) ∧
    (¬ (0 ≤ i ∧ i < r ∧ 0 ≤ j ∧ j < c) → e.at i j = .error .index) := by
  obtain ⟨c1, d1⟩ := nice_check he se hr
  rw [← like_goType]
  refine ⟨matrixIndexError_reports (show e.like.dims = _ from d1), fun h => ?_⟩
  have hx : checkIndexMat i j (r, c) = .error .index := by
    unfold checkIndexMat
    split
    · rfl
    · rw [if_pos (by simp only at *; omega)]
      rfl
  cases e with
  | s a =>
    cases d1
    simp only [Expr.at, show a.check = .ok () from c1, hx, Go.ok_bind, Go.err_bind]
  | v a =>
    cases a with
    | k l =>
      cases d1
      simp only [Expr.at, Vec.at, hx, Go.err_bind]
    | v l =>
      cases d1
      simp only [Expr.at, Vec.at, show Vec.check (.v l) = .ok () from c1, hx, Go.ok_bind, Go.err_bind]
    | m l =>
      cases d1
      simp only [Expr.at, Vec.at, show Vec.check (.m l) = .ok () from c1, hx, Go.ok_bind, Go.err_bind]
    | p l =>
      simp only [Expr.at, Vec.at, show Vec.check (.p l) = .ok () from c1,
        show Vec.dims (.p l) = .ok (r, c) from d1, hx, Go.ok_bind, Go.err_bind]
  | m a =>
    cases a with
    | k l => exact hk.elim
    | v l => exact hk.elim
    | m l => exact hk.elim
    | p l =>
      simp only [Expr.at, Mat.at, show Mat.check (.p l) = .ok () from c1,
        show Mat.dims (.p l) = .ok (r, c) from d1, hx, Go.ok_bind, Go.err_bind]

/-- C67: `Check` of a matrix of variables, monomials or polynomials whose shape is reported is an
error. -/
theorem checkRows_error {α : Type} {rows : List (List α)} {chk : α → Go Unit} (e : MatrixLike)
    (h : rowsError e rows ≠ none) : checkRows rows chk = .error .check := by
  cases rows with
  | nil => rfl
  | cons row0 rows =>
    have key : ∀ (l : List (List α)), (∃ row ∈ l, row.length ≠ row0.length) →
        l.forM (fun row => if row.length ≠ row0.length then (throw .check : Go PUnit) else pure ()) =
          .error .check := by
      intro l
      induction l with
      | nil => simp
      | cons a l ih =>
        intro hl
        show ((if a.length ≠ row0.length then (throw .check : Go PUnit) else pure ()) >>= fun _ => _) = _
        split
        · rfl
        · rename_i ha
          obtain ⟨row, hrow, hne⟩ := hl
          rcases List.mem_cons.mp hrow with rfl | hrow
          · exact absurd hne ha
          · exact ih ⟨row, hrow, hne⟩
    have h1 : ∃ row ∈ row0 :: rows, row.length ≠ row0.length := by
      by_contra hc
      refine h (columnsError_none.mpr fun row hrow => ?_)
      by_contra hne
      exact hc ⟨row, hrow, hne⟩
    unfold checkRows
    simp only []
    rw [key _ h1]
    rfl

/-- C67: `Check` of a matrix of variables, monomials or polynomials rejects a matrix without rows or
with rows of different lengths, with the error `rowsError_reports` describes. -/
theorem matrix_check_reports (rv : List (List (Var S))) (rm : List (List (Mono S)))
    (rp : List (List (Poly S))) :
    (rowsError (Expr.m (.v rv)).like rv ≠ none → (Expr.m (.v rv)).check = .error .check) ∧
    (rowsError (Expr.m (.m rm) : Expr S).like rm ≠ none → (Expr.m (.m rm) : Expr S).check = .error .check) ∧
    (rowsError (Expr.m (.p rp) : Expr S).like rp ≠ none → (Expr.m (.p rp) : Expr S).check = .error .check) :=
  ⟨fun h => checkRows_error _ h, fun h => checkRows_error _ h, fun h => checkRows_error _ h⟩

end

/-! ### Non-trivial cases -/

/-- The sum of a column of two variables and a column of three. -/
example : (Expr.v (.v [wx, wy])).plus (.v (.v [wx, wy, wz])) = .error .dimension ∧
    ∃ err, (Expr.v (.v [wx, wy])).plusError (.v (.v [wx, wy, wz])) = .ok (some err) ∧
      err.text = .ok "dimension error: Cannot perform Plus between expression of dimension (2,1) and expression of dimension (3,1)".toList := by
  have key := plus_reports (a := Expr.v (.v [wx, wy])) (b := .v (.v [wx, wy, wz])) (r := 2) (c := 1)
    (r' := 3) (c' := 1) (Expr.okDeg_canon 1 (by decide +kernel)) (by decide) (by decide)
    (Expr.okDeg_canon 1 (by decide +kernel)) (by decide) (by decide) (by intro x h; cases h)
  have hn : ¬ sumCompatible (2, 1) (3, 1) := by simp [sumCompatible]
  obtain ⟨err, h1, h2⟩ := key.1.2 hn
  refine ⟨key.2 hn, err, h1, ?_⟩
  rw [h2]
  congr 1

/-- A matrix whose second row is too short. -/
example : rowsError (Expr.m (.v [[wx, wy], [wx]])).like [[wx, wy], [wx]] =
    some (.columnMismatch 2 1 1) := by
  simp [rowsError, columnsError]

/-- The product of a 1 by 2 matrix and a column of three, and their comparison. -/
example : (Expr.m (.k [[1, 2]])).mul (.v (.v [wx, wy, wz])) = .error .dimension ∧
    (Expr.m (.k [[1, 2]])).comparison (.v (.v [wx, wy, wz])) .le = .error .dimension ∧
    (∃ err, (Expr.m (.k [[1, 2]])).mulError (.v (.v [wx, wy, wz])) = .ok (some err) ∧
      err.text = .ok "dimension error: Cannot perform Multiply between expression of dimension (1,2) and expression of dimension (3,1)".toList) ∧
    ∃ err, (Expr.m (.k [[1, 2]])).comparisonError (.v (.v [wx, wy, wz])) .le = .ok (some err) ∧
      err.text = .ok "dimension error: Cannot perform Comparison (<=) between expression of dimension (1,2) and expression of dimension (3,1)".toList := by
  have ha : (Expr.m (.k [[(1 : ℚ), 2]])).Canon := Expr.okDeg_canon 1 (by decide +kernel)
  have hb : (Expr.v (.v [wx, wy, wz])).Canon := Expr.okDeg_canon 1 (by decide +kernel)
  have h1 := mul_reports (r := 1) (c := 2) (r' := 3) (c' := 1) ha (by decide) (by decide) hb (by decide)
    (by decide) (by intro x h; cases h)
  have h2 := comparison_reports (r := 1) (c := 2) (r' := 3) (c' := 1) ha (by decide) (by decide) hb
    (by decide) (by decide) (by intro x h; cases h) (sense := .le) (by simp)
  have n1 : ¬ productCompatible (1, 2) (3, 1) := by simp [productCompatible]
  have n2 : ¬ ((1, 2) = (3, 1) ∨ ∃ x, (Expr.v (.v [wx, wy, wz]) : Expr ℚ) = .s x) := by simp
  obtain ⟨e1, h3, h4⟩ := h1.1.2 n1
  obtain ⟨e2, h5, h6⟩ := h2.1.2 n2
  exact ⟨h1.2 n1, h2.2 n2, ⟨e1, h3, by rw [h4]; congr 1⟩, e2, h5, by rw [h6]; congr 1⟩

/-- A constraint between a column of two and a column of three. -/
example : ∃ err, (VCon.mk (.v [wx, wy]) (.k [1, 2, 3]) .ge : VCon ℚ).dimError = .ok (some err) ∧
    err.text = .ok "vector dimension error: Cannot perform Comparison (>=) between expression of dimension 2 and expression of dimension 3".toList := by
  have h := vcon_reports (k := (VCon.mk (.v [wx, wy]) (.k [1, 2, 3]) .ge : VCon ℚ)) (n := 2) (m := 3)
    (Expr.okDeg_canon 1 (by decide +kernel)) (by decide) (by decide)
    (Expr.okDeg_canon 1 (by decide +kernel)) (by decide) (by decide) (by simp)
  obtain ⟨e, h1, h2⟩ := h.1.2 (by decide)
  exact ⟨e, h1, by rw [h2]; congr 1⟩

/-- Index 2 of a column of two. -/
example : (Expr.v (.v [wx, wy])).at 2 0 = .error .index ∧
    ∃ err, matrixIndexError 2 0 (Expr.v (.v [wx, wy])).like = .ok (some err) ∧
      err.text = .ok "out of bounds error: index (2, 0) is out of bounds for symbolic.VariableVector object of dimension [2 1]".toList := by
  have h := at_reports (e := Expr.v (.v [wx, wy])) (r := 2) (c := 1)
    (Expr.okDeg_canon 1 (by decide +kernel)) (by decide) (by decide) trivial 2 0
  obtain ⟨e, h1, h2⟩ := h.1.2 (by decide)
  exact ⟨h.2 (by decide), e, h1, by rw [h2]; congr 1⟩

/-- Three columns on top of each other, the third of a different width. -/
example : ∃ err, vstackError ([.v (.v [wx, wy]), .s (.var wx), .m (.k [[1, 2]]), .s (.k 1)].map
      (Expr.like (R := ℚ))) = .ok (some err) ∧
    err.text = .ok "dimension error: Cannot perform VStack between expression of dimension (1,1) and expression of dimension (1,2)".toList :=
  ⟨_, rfl, by decide +kernel⟩

/-- A row of two and a column of three; a column of two and a column of three that is a matrix. -/
example : (∃ err, comparisonError (Expr.m (.k [[1, 2]]) : Expr ℚ).like (Expr.v (.v [wx, wy, wz])).like "<=".toList =
        .ok (some err) ∧ err.text = .ok (dimMessage "<=" (1, 2) (3, 1)).toList) ∧
    comparisonError (Expr.v (.v [wx, wy])).like (Expr.m (.k [[1], [2], [3]]) : Expr ℚ).like "<=".toList =
      .error .typeAssert :=
  ⟨((comparisonError_reports rfl rfl "<=").2 (by decide)).2.2 (by decide),
    ((comparisonError_reports rfl rfl "<=").2 (by decide)).2.1 rfl rfl (.inr rfl)⟩

end Verif
