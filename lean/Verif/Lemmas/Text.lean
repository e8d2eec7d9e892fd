import Mathlib.Algebra.Order.Group.Abs
import Verif.Lemmas.Value
import Verif.Model.Text
import Verif.Spec
import Verif.SpecArray

/-!
# Lemmas about printed text: a printed scalar can be read back
-/

set_option linter.unusedSectionVars false

namespace Verif

variable {R : Type}

/-! ## Runs of characters -/

theorem run_eq {p : Char → Bool} {d1 d2 t1 t2 : List Char} (h1 : ∀ a ∈ d1, p a = true)
    (h2 : ∀ a ∈ d2, p a = true) (k1 : ∀ a ∈ t1.head?, p a = false) (k2 : ∀ a ∈ t2.head?, p a = false)
    (h : d1 ++ t1 = d2 ++ t2) : d1 = d2 ∧ t1 = t2 := by
  induction d1 generalizing d2 with
  | nil =>
    cases d2 with
    | nil => exact ⟨rfl, h⟩
    | cons a d2 =>
      rw [List.nil_append] at h
      have := k1 a (by rw [h]; simp)
      rw [h2 a (by simp)] at this
      cases this
  | cons a d1 ih =>
    cases d2 with
    | nil =>
      rw [List.nil_append] at h
      have := k2 a (by rw [← h]; simp)
      rw [h1 a (by simp)] at this
      cases this
    | cons b d2 =>
      simp only [List.cons_append, List.cons.injEq] at h
      obtain ⟨rfl, h⟩ := h
      obtain ⟨rfl, h⟩ := ih (fun a ha => h1 a (by simp [ha])) (fun a ha => h2 a (by simp [ha])) h
      exact ⟨rfl, by assumption⟩

theorem toDigits_inj {m n : ℕ} (h : Nat.toDigits 10 m = Nat.toDigits 10 n) : m = n := by
  rw [← Nat.ofDigitChars_ten_toDigits (n := m), h, Nat.ofDigitChars_ten_toDigits]

theorem toDigits_digit {n : ℕ} {a : Char} (h : a ∈ Nat.toDigits 10 n) : a.isDigit = true :=
  Nat.isDigit_of_mem_toDigits (by omega) (by omega) h

/-- The characters of an integer. -/
def isIntChar (a : Char) : Bool := a.isDigit || a == '-'

theorem intChars_all {n : ℤ} {a : Char} (h : a ∈ intChars n) : isIntChar a = true := by
  unfold intChars at h
  unfold isIntChar
  split at h
  · rcases List.mem_cons.mp h with rfl | h
    · rfl
    · rw [toDigits_digit h]; rfl
  · rw [toDigits_digit h]; rfl

theorem intChars_inj {m n : ℤ} (h : intChars m = intChars n) : m = n := by
  have hd : ∀ k j, Nat.toDigits 10 k ≠ '-' :: j := by
    intro k j hk
    have := toDigits_digit (n := k) (a := '-') (by rw [hk]; simp)
    cases this
  unfold intChars at h
  split at h <;> split at h
  · have := toDigits_inj (List.cons.inj h).2
    omega
  · exact absurd h.symm (hd _ _)
  · exact absurd h (hd _ _)
  · have := toDigits_inj h
    omega

/-! ## Factors -/

/-- The name that `NewVariable` chooses. -/
def Var.Default (v : Var R) : Prop := v.name = s!"x_{v.id}"

theorem Var.Default.toList {v : Var R} (h : v.Default) :
    v.name.toList = 'x' :: '_' :: Nat.toDigits 10 v.id := by
  unfold Var.Default at h
  rw [h]
  simp only [String.toList_append, Nat.toString_eq_repr, Nat.toList_repr]
  rfl

/-- What may follow the factors of a monomial. -/
def StopF (s : List Char) : Prop := ∀ a ∈ s.head?, a = ' ' ∨ a = ',' ∨ a = ']'

theorem factor_head {vs : List (Var R)} {es : List ℤ} {s : List Char} (hd : ∀ v ∈ vs, v.Default)
    (hs : StopF s) : ∀ a ∈ (factorChars vs es ++ s).head?, a = 'x' ∨ a = ' ' ∨ a = ',' ∨ a = ']' := by
  intro a ha
  cases vs with
  | nil =>
    rw [factorChars.eq_2 _ _ (by simp)] at ha
    exact .inr (hs a ha)
  | cons v vs =>
    cases es with
    | nil =>
      rw [factorChars.eq_2 _ _ (by simp)] at ha
      exact .inr (hs a ha)
    | cons e es =>
      rw [factorChars, (hd v (by simp)).toList] at ha
      simp at ha
      exact .inl ha.symm

theorem factor_inj {vs ws : List (Var R)} {es fs : List ℤ} {s t : List Char}
    (h1 : es.length = vs.length) (h2 : fs.length = ws.length) (d1 : ∀ v ∈ vs, v.Default)
    (d2 : ∀ v ∈ ws, v.Default) (hs : StopF s) (ht : StopF t)
    (h : factorChars vs es ++ s = factorChars ws fs ++ t) :
    vs.map (·.id) = ws.map (·.id) ∧ es = fs ∧ s = t := by
  induction vs generalizing es ws fs with
  | nil =>
    have : es = [] := List.length_eq_zero_iff.mp (by simpa using h1)
    subst this
    cases ws with
    | nil =>
      have : fs = [] := List.length_eq_zero_iff.mp (by simpa using h2)
      subst this
      exact ⟨rfl, rfl, h⟩
    | cons w ws =>
      cases fs with
      | nil => simp at h2
      | cons f fs =>
        rw [factorChars.eq_2 _ _ (by simp), factorChars, (d2 w (by simp)).toList] at h
        rcases hs 'x' (by rw [List.nil_append] at h; rw [h]; simp) with h | h | h <;> cases h
  | cons v vs ih =>
    cases es with
    | nil => simp at h1
    | cons e es =>
      cases ws with
      | nil =>
        rw [factorChars.eq_2 [] _ (by simp), factorChars, (d1 v (by simp)).toList] at h
        rcases ht 'x' (by rw [List.nil_append] at h; rw [← h]; simp) with h | h | h <;> cases h
      | cons w ws =>
        cases fs with
        | nil => simp at h2
        | cons f fs =>
          have hd1 : ∀ v ∈ vs, v.Default := fun v hv => d1 v (by simp [hv])
          have hd2 : ∀ v ∈ ws, v.Default := fun v hv => d2 v (by simp [hv])
          have r1 := factor_head (es := es) hd1 hs
          have r2 := factor_head (es := fs) hd2 ht
          rw [factorChars, factorChars, (d1 v (by simp)).toList, (d2 w (by simp)).toList] at h
          simp only [List.cons_append, List.cons.injEq, true_and, List.append_assoc] at h
          have hh : ∀ {e : ℤ} {r : List Char}, (∀ a ∈ r.head?, a = 'x' ∨ a = ' ' ∨ a = ',' ∨ a = ']') →
              ∀ a ∈ ((if e ≠ 1 then '^' :: intChars e else []) ++ r).head?, a.isDigit = false := by
            intro e r hr a ha
            split at ha
            · simp at ha; subst ha; rfl
            · rw [List.nil_append] at ha
              rcases hr a ha with rfl | rfl | rfl | rfl <;> rfl
          obtain ⟨k1, k2⟩ := run_eq (p := Char.isDigit) (fun a ha => toDigits_digit ha)
            (fun a ha => toDigits_digit ha) (hh r1) (hh r2) h
          have hid := toDigits_inj k1
          have hi : ∀ {r : List Char}, (∀ a ∈ r.head?, a = 'x' ∨ a = ' ' ∨ a = ',' ∨ a = ']') →
              ∀ a ∈ r.head?, isIntChar a = false := by
            intro r hr a ha
            rcases hr a ha with rfl | rfl | rfl | rfl <;> rfl
          have hc : ∀ {r : List Char} {x : List Char},
              (∀ a ∈ r.head?, a = 'x' ∨ a = ' ' ∨ a = ',' ∨ a = ']') → r ≠ '^' :: x := by
            intro r x hr h
            rcases hr '^' (by rw [h]; simp) with h | h | h | h <;> cases h
          have : e = f ∧ factorChars vs es ++ s = factorChars ws fs ++ t := by
            by_cases he : e = 1 <;> by_cases hf : f = 1
            · rw [if_neg (by simpa using he), if_neg (by simpa using hf)] at k2
              exact ⟨he.trans hf.symm, k2⟩
            · rw [if_neg (by simpa using he), if_pos hf] at k2
              exact absurd k2 (hc r1)
            · rw [if_pos he, if_neg (by simpa using hf)] at k2
              exact absurd k2.symm (hc r2)
            · rw [if_pos he, if_pos hf] at k2
              simp only [List.cons_append, List.cons.injEq, true_and] at k2
              obtain ⟨k3, k4⟩ := run_eq (p := isIntChar) (fun a ha => intChars_all ha)
                (fun a ha => intChars_all ha) (hi r1) (hi r2) k2
              exact ⟨intChars_inj k3, k4⟩
          obtain ⟨hef, h'⟩ := this
          obtain ⟨e1, e2, e3⟩ := ih (by simpa using h1) (by simpa using h2) hd1 hd2 h'
          exact ⟨by simp [hid, e1], by rw [hef, e2], e3⟩

/-! ## Monomials and polynomials -/

/-- What the theorems assume of the format of numbers: different numbers look different, and the
characters used to separate numbers do not occur in them. -/
structure NumFormat (fmt : R → List Char) : Prop where
  inj : Function.Injective fmt
  ne : ∀ c, fmt c ≠ []
  chars : ∀ c, ∀ a ∈ fmt c, a ∉ [' ', 'x', ',', '[', ']', 'V', 'M', 'P']

/-- The characters of a number, as far as the theorems know. -/
def isNumChar (a : Char) : Bool := !([' ', 'x', ',', '[', ']', 'V', 'M', 'P'].contains a)

theorem NumFormat.isNum {fmt : R → List Char} (h : NumFormat fmt) {c : R} {a : Char} (ha : a ∈ fmt c) :
    isNumChar a = true := by
  have := h.chars c a ha
  unfold isNumChar
  rw [Bool.not_eq_true', ← Bool.not_eq_true, List.contains_iff_mem]
  exact this

/-- What may follow a monomial. -/
def Stop1 (s : List Char) : Prop :=
  s = [] ∨ (∃ r, s = ',' :: r) ∨ (∃ r, s = ']' :: r) ∨ ∃ a r, s = ' ' :: a :: r ∧ a ≠ 'x'

theorem Stop1.stopF {s : List Char} (h : Stop1 s) : StopF s := by
  intro a ha
  rcases h with rfl | ⟨r, rfl⟩ | ⟨r, rfl⟩ | ⟨b, r, rfl, -⟩
  · cases ha
  · simp at ha; simp [ha.symm]
  · simp at ha; simp [ha.symm]
  · simp at ha; simp [ha.symm]

theorem StopF.num {s : List Char} (h : StopF s) : ∀ a ∈ s.head?, isNumChar a = false := by
  intro a ha
  rcases h a ha with rfl | rfl | rfl <;> rfl

section
variable [Field R] [LinearOrder R] (fmt : R → List Char)

/-- The text of a monomial. -/
def mtext (m : Mono R) : List Char :=
  if m.vars = [] then fmt m.coeff
  else if m.coeff = 1 then factorChars m.vars m.exps
  else fmt m.coeff ++ ' ' :: factorChars m.vars m.exps

variable {fmt}

theorem mono_chars {m : Mono R} (h : m.exps.length = m.vars.length) : m.chars fmt = .ok (mtext fmt m) := by
  unfold Mono.chars mtext
  rw [show m.check = .ok () by simp [Mono.check, h, Go.pure_eq], Go.ok_bind, Go.pure_eq]
  congr 1
  by_cases hv : m.vars = []
  · have he : m.exps = [] := List.length_eq_zero_iff.mp (by rw [h, hv]; rfl)
    simp [hv, he, factorChars]
  · by_cases hc : m.coeff = 1
    · simp [hv, hc]
    · simp [hv, hc]

/-- What is written: coefficient, IDs of the factors, exponents. -/
def Mono.key (m : Mono R) : R × List ℕ × List ℤ := (m.coeff, m.vars.map (·.id), m.exps)

theorem mono_inj (hF : NumFormat fmt) {m r : Mono R} (h1 : m.exps.length = m.vars.length)
    (h2 : r.exps.length = r.vars.length) (d1 : ∀ v ∈ m.vars, v.Default) (d2 : ∀ v ∈ r.vars, v.Default)
    {s t : List Char} (hs : Stop1 s) (ht : Stop1 t) (h : mtext fmt m ++ s = mtext fmt r ++ t) :
    m.key = r.key ∧ s = t := by
  have ex : ∀ {m : Mono R} (_ : m.exps.length = m.vars.length) (_ : ∀ v ∈ m.vars, v.Default)
      (_ : ¬ m.vars = []), ∃ w, factorChars m.vars m.exps = 'x' :: w := by
    intro m hl hd hv
    cases hvs : m.vars with
    | nil => exact absurd hvs hv
    | cons v vs =>
      cases hes : m.exps with
      | nil => rw [hvs, hes] at hl; simp at hl
      | cons e es =>
        rw [factorChars, (hd v (by rw [hvs]; simp)).toList]
        exact ⟨_, rfl⟩
  have nx : ∀ {c : R} {u w : List Char}, fmt c ++ u ≠ 'x' :: w := by
    intro c u w h
    cases hf : fmt c with
    | nil => exact hF.ne c hf
    | cons a l =>
      rw [hf] at h
      simp only [List.cons_append, List.cons.injEq] at h
      have := hF.chars c a (by rw [hf]; simp)
      rw [h.1] at this
      simp at this
  have ns : ∀ {s w : List Char}, Stop1 s → s ≠ ' ' :: 'x' :: w := by
    intro s w hs h
    rcases hs with rfl | ⟨r, rfl⟩ | ⟨r, rfl⟩ | ⟨b, r, rfl, hb⟩
    · cases h
    · cases h
    · cases h
    · simp at h; exact hb h.1
  have sp : ∀ {w : List Char}, ∀ a ∈ (' ' :: w).head?, isNumChar a = false := by
    intro w a ha; simp at ha; subst ha; rfl
  unfold mtext at h
  unfold Mono.key
  by_cases v1 : m.vars = [] <;> by_cases v2 : r.vars = []
  · rw [if_pos v1, if_pos v2] at h
    obtain ⟨k1, k2⟩ := run_eq (fun a ha => hF.isNum ha) (fun a ha => hF.isNum ha) hs.stopF.num
      ht.stopF.num h
    have e1 : m.exps = [] := List.length_eq_zero_iff.mp (by rw [h1, v1]; rfl)
    have e2 : r.exps = [] := List.length_eq_zero_iff.mp (by rw [h2, v2]; rfl)
    exact ⟨by rw [hF.inj k1, v1, v2, e1, e2], k2⟩
  · rw [if_pos v1, if_neg v2] at h
    obtain ⟨w, hw⟩ := ex h2 d2 v2
    split at h
    · rw [hw] at h; exact absurd h nx
    · rw [List.append_assoc] at h
      obtain ⟨-, k2⟩ := run_eq (fun a ha => hF.isNum ha) (fun a ha => hF.isNum ha) hs.stopF.num sp h
      rw [hw] at k2
      exact absurd k2 (ns hs)
  · rw [if_neg v1, if_pos v2] at h
    obtain ⟨w, hw⟩ := ex h1 d1 v1
    split at h
    · rw [hw] at h; exact absurd h.symm nx
    · rw [List.append_assoc] at h
      obtain ⟨-, k2⟩ := run_eq (fun a ha => hF.isNum ha) (fun a ha => hF.isNum ha) sp ht.stopF.num h
      rw [hw] at k2
      exact absurd k2.symm (ns ht)
  · rw [if_neg v1, if_neg v2] at h
    by_cases c1 : m.coeff = 1 <;> by_cases c2 : r.coeff = 1
    · rw [if_pos c1, if_pos c2] at h
      obtain ⟨k1, k2, k3⟩ := factor_inj h1 h2 d1 d2 hs.stopF ht.stopF h
      exact ⟨by rw [c1, c2, k1, k2], k3⟩
    · rw [if_pos c1, if_neg c2] at h
      obtain ⟨w, hw⟩ := ex h1 d1 v1
      rw [hw, List.append_assoc] at h
      exact absurd h.symm nx
    · rw [if_neg c1, if_pos c2] at h
      obtain ⟨w, hw⟩ := ex h2 d2 v2
      rw [hw, List.append_assoc] at h
      exact absurd h nx
    · rw [if_neg c1, if_neg c2, List.append_assoc, List.append_assoc] at h
      obtain ⟨k1, k2⟩ := run_eq (fun a ha => hF.isNum ha) (fun a ha => hF.isNum ha) sp sp h
      simp only [List.cons_append, List.cons.injEq, true_and] at k2
      obtain ⟨k3, k4, k5⟩ := factor_inj h1 h2 d1 d2 hs.stopF ht.stopF k2
      exact ⟨by rw [hF.inj k1, k3, k4], k5⟩

/-- What may follow a scalar. -/
def Stop2 (s : List Char) : Prop :=
  s = [] ∨ (∃ r, s = ',' :: r) ∨ (∃ r, s = ']' :: r) ∨ ∃ a r, s = ' ' :: a :: r ∧ a ∉ ['x', '+', '-']

theorem Stop2.stop1 {s : List Char} (h : Stop2 s) : Stop1 s := by
  rcases h with h | h | h | ⟨a, r, h, ha⟩
  · exact .inl h
  · exact .inr (.inl h)
  · exact .inr (.inr (.inl h))
  · exact .inr (.inr (.inr ⟨a, r, h, fun hx => ha (by simp [hx])⟩))

variable (fmt)

/-- The text of the terms of a polynomial after the first. -/
def ttext : List (Mono R) → List Char
  | [] => []
  | m :: l => ' ' :: (if 0 ≤ m.coeff then '+' else '-') :: ' ' ::
      (mtext fmt { m with coeff := |m.coeff| } ++ ttext l)

/-- The text of a sum of terms. -/
def ltext : List (Mono R) → List Char
  | [] => []
  | m :: l => mtext fmt m ++ ttext fmt l

/-- The text of a scalar. -/
def stext (a : Scalar R) : List Char := ltext fmt a.toPoly.monos

variable {fmt}

/-- As many exponents as factors. -/
def Mono.Len (m : Mono R) : Prop := m.exps.length = m.vars.length

def Mono.Default (m : Mono R) : Prop := ∀ v ∈ m.vars, v.Default

end

section
variable [Field R] [LinearOrder R] [IsStrictOrderedRing R] {fmt : R → List Char}

theorem absVal_eq (c : R) : absVal c = |c| := by
  unfold absVal
  simp only [gn_lt, gn_zero, gn_neg, gn_feq, decide_eq_true_eq]
  split
  · rename_i h; exact (abs_of_neg h).symm
  · rename_i h
    split
    · rename_i h0; rw [h0, abs_zero]
    · exact (abs_of_nonneg (not_lt.mp h)).symm

theorem tail_chars {l : List (Mono R)} (h : ∀ m ∈ l, m.Len) : tailChars fmt l = .ok (ttext fmt l) := by
  induction l with
  | nil => rfl
  | cons m l ih =>
    unfold tailChars ttext
    rw [absVal_eq]
    dsimp only
    rw [mono_chars (m := { m with coeff := |m.coeff| }) (h m (by simp)), Go.ok_bind,
      ih fun m hm => h m (by simp [hm]), Go.ok_bind, Go.pure_eq]
    simp

theorem tail_stop {l : List (Mono R)} {s : List Char} (hs : Stop2 s) : Stop1 (ttext fmt l ++ s) := by
  cases l with
  | nil => exact hs.stop1
  | cons m l =>
    refine .inr (.inr (.inr ⟨_, _, rfl, ?_⟩))
    split <;> decide

theorem tail_inj (hF : NumFormat fmt) {l k : List (Mono R)} (h1 : ∀ m ∈ l, m.Len ∧ m.Default)
    (h2 : ∀ m ∈ k, m.Len ∧ m.Default) {s t : List Char} (hs : Stop2 s) (ht : Stop2 t)
    (h : ttext fmt l ++ s = ttext fmt k ++ t) : l.map Mono.key = k.map Mono.key ∧ s = t := by
  have no : ∀ {m : Mono R} {l : List (Mono R)} {s t : List Char}, Stop2 s → s ≠ ttext fmt (m :: l) ++ t := by
    intro m l s t hs h
    unfold ttext at h
    rcases hs with rfl | ⟨r, rfl⟩ | ⟨r, rfl⟩ | ⟨b, r, rfl, hb⟩
    · cases h
    · cases h
    · cases h
    · simp only [List.cons_append, List.cons.injEq, true_and] at h
      apply hb
      rw [h.1]
      split <;> simp
  induction l generalizing k with
  | nil =>
    cases k with
    | nil => exact ⟨rfl, h⟩
    | cons m k => exact absurd h (no hs)
  | cons m l ih =>
    cases k with
    | nil => exact absurd h.symm (no ht)
    | cons r k =>
      unfold ttext at h
      simp only [List.cons_append, List.cons.injEq, true_and, List.append_assoc] at h
      obtain ⟨ho, h⟩ := h
      obtain ⟨k1, k2⟩ := mono_inj hF (m := { m with coeff := |m.coeff| }) (r := { r with coeff := |r.coeff| })
        (h1 m (by simp)).1 (h2 r (by simp)).1 (h1 m (by simp)).2 (h2 r (by simp)).2
        (tail_stop hs) (tail_stop ht) h
      obtain ⟨k3, k4⟩ := ih (fun m hm => h1 m (by simp [hm])) (fun m hm => h2 m (by simp [hm])) k2
      simp only [Mono.key, Prod.mk.injEq] at k1
      have hc : m.coeff = r.coeff := by
        by_cases a1 : 0 ≤ m.coeff <;> by_cases a2 : 0 ≤ r.coeff
        · rw [abs_of_nonneg a1, abs_of_nonneg a2] at k1; exact k1.1
        · rw [if_pos a1, if_neg a2] at ho; cases ho
        · rw [if_neg a1, if_pos a2] at ho; cases ho
        · rw [abs_of_neg (not_le.mp a1), abs_of_neg (not_le.mp a2)] at k1; exact neg_injective k1.1
      refine ⟨?_, k4⟩
      rw [List.map_cons, List.map_cons, k3, show m.key = r.key by
        unfold Mono.key; rw [hc, k1.2.1, k1.2.2]]

theorem list_inj (hF : NumFormat fmt) {l k : List (Mono R)} (n1 : l ≠ []) (n2 : k ≠ [])
    (h1 : ∀ m ∈ l, m.Len ∧ m.Default)
    (h2 : ∀ m ∈ k, m.Len ∧ m.Default) {s t : List Char} (hs : Stop2 s) (ht : Stop2 t)
    (h : ltext fmt l ++ s = ltext fmt k ++ t) : l.map Mono.key = k.map Mono.key ∧ s = t := by
  cases l with
  | nil => exact absurd rfl n1
  | cons m l =>
    cases k with
    | nil => exact absurd rfl n2
    | cons r k =>
      unfold ltext at h
      rw [List.append_assoc, List.append_assoc] at h
      obtain ⟨k1, k2⟩ := mono_inj hF (h1 m (by simp)).1 (h2 r (by simp)).1 (h1 m (by simp)).2
        (h2 r (by simp)).2 (tail_stop hs) (tail_stop ht) h
      obtain ⟨k3, k4⟩ := tail_inj hF (fun m hm => h1 m (by simp [hm])) (fun m hm => h2 m (by simp [hm]))
        hs ht k2
      exact ⟨by rw [List.map_cons, List.map_cons, k1, k3], k4⟩

end

/-! ## Lists of items -/

/-- Items with separators between them and a closing text. -/
def inter {α : Type} (sep close : List Char) (E : α → List Char) : List α → List Char
  | [] => close
  | [a] => E a ++ close
  | a :: b :: l => E a ++ sep ++ inter sep close E (b :: l)

theorem joinLoop_inter {α : Type} {sep close : List Char} {E : α → List Char} {l : List α} {n : ℕ}
    (hn : l.length = n) : joinLoop n sep (l.map E) ++ close = inter sep close E l := by
  have h : ∀ (l : List α) k, k + l.length = n →
      ((l.map E).zipIdx k).flatMap (fun x => x.1 ++ if x.2 + 1 ≠ n then sep else []) ++ close =
        inter sep close E l := by
    intro l
    induction l with
    | nil => intro k _; rfl
    | cons a l ih =>
      intro k hk
      cases l with
      | nil =>
        simp only [List.length_cons, List.length_nil] at hk
        simp [inter, hk]
      | cons b l =>
        have hk' : k + 1 ≠ n := by simp only [List.length_cons] at hk; omega
        rw [List.map_cons, List.zipIdx_cons, List.flatMap_cons, List.append_assoc,
          ih (k + 1) (by simp only [List.length_cons] at hk ⊢; omega)]
        simp [inter, hk']
  unfold joinLoop
  exact h l 0 (by omega)

theorem inter_inj {α : Type} {P : α → Prop} {Q : α → α → Prop} {E : α → List Char} {cs cc : Char}
    {sep close : List Char} (hne : cs ≠ cc)
    (hE : ∀ a b s t, P a → P b → (∀ x ∈ s.head?, x = cs ∨ x = cc) → (∀ x ∈ t.head?, x = cs ∨ x = cc) →
      s ≠ [] → t ≠ [] → E a ++ s = E b ++ t → Q a b ∧ s = t)
    (hst : ∀ a, P a → ∃ x r, E a = x :: r ∧ x ≠ cc)
    {l k : List α} (hl : ∀ a ∈ l, P a) (hk : ∀ a ∈ k, P a) {s t : List Char}
    (h : inter (cs :: sep) (cc :: close) E l ++ s = inter (cs :: sep) (cc :: close) E k ++ t) :
    List.Forall₂ Q l k ∧ s = t := by
  have hin : ∀ {a : α} {l : List α} {s : List Char}, ∃ u,
      inter (cs :: sep) (cc :: close) E (a :: l) ++ s = E a ++ u ∧ u ≠ [] ∧
      (∀ x ∈ u.head?, x = cs ∨ x = cc) ∧
      (l = [] → u = cc :: (close ++ s)) ∧
      (l ≠ [] → u = cs :: (sep ++ (inter (cs :: sep) (cc :: close) E l ++ s))) := by
    intro a l s
    cases l with
    | nil => exact ⟨cc :: (close ++ s), by simp [inter], by simp, by simp, by simp, by simp⟩
    | cons b l =>
      exact ⟨cs :: (sep ++ (inter (cs :: sep) (cc :: close) E (b :: l) ++ s)), by simp [inter], by simp,
        by simp, by simp, by simp⟩
  have hst' : ∀ {a : α} {w u : List Char}, P a → E a ++ u ≠ cc :: w := by
    intro a w u ha h
    obtain ⟨x, r, he, hx⟩ := hst a ha
    rw [he] at h
    simp only [List.cons_append, List.cons.injEq] at h
    exact hx h.1
  induction l generalizing k with
  | nil =>
    cases k with
    | nil => exact ⟨.nil, by simpa [inter] using h⟩
    | cons b k =>
      obtain ⟨u, hu, -⟩ := hin (a := b) (l := k) (s := t)
      rw [hu] at h
      exact absurd h.symm (hst' (hk b (by simp)))
  | cons a l ih =>
    cases k with
    | nil =>
      obtain ⟨u, hu, -⟩ := hin (a := a) (l := l) (s := s)
      rw [hu] at h
      exact absurd h (hst' (hl a (by simp)))
    | cons b k =>
      obtain ⟨u, hu, hu1, hu2, hu3, hu4⟩ := hin (a := a) (l := l) (s := s)
      obtain ⟨w, hw, hw1, hw2, hw3, hw4⟩ := hin (a := b) (l := k) (s := t)
      rw [hu, hw] at h
      obtain ⟨hq, h⟩ := hE a b u w (hl a (by simp)) (hk b (by simp)) hu2 hw2 hu1 hw1 h
      by_cases el : l = [] <;> by_cases ek : k = []
      · rw [hu3 el, hw3 ek] at h
        simp only [List.cons.injEq, true_and] at h
        subst el ek
        exact ⟨.cons hq .nil, List.append_cancel_left h⟩
      · rw [hu3 el, hw4 ek] at h
        exact absurd (List.cons.inj h).1.symm hne
      · rw [hu4 el, hw3 ek] at h
        exact absurd (List.cons.inj h).1 hne
      · rw [hu4 el, hw4 ek] at h
        simp only [List.cons.injEq, true_and, List.append_cancel_left_eq] at h
        obtain ⟨h1, h2⟩ := ih (fun a ha => hl a (by simp [ha])) (fun a ha => hk a (by simp [ha])) h
        exact ⟨.cons hq h1, h2⟩

end Verif
