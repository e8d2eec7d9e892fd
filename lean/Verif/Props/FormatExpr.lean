import Verif.Props.Format
import Verif.Props.FloatArr

/-!
# C84: printed `float64` expressions

`String` of a `float64` expression is `String` of the expression with the same exact coefficients, under a format of
the rational numbers that prints every `float64` as `%v` does.  That format meets the assumptions of C53.
-/

set_option linter.unusedSectionVars false

namespace Verif

open GoNum

/-- A format of all rational numbers: `float64` values as `%v` prints them, other numbers as fractions. -/
def floatFormat (t : ℤ) (q : ℚ) : List Char := if F64.ofRat q = .fin q then fmtFloat t (.fin q) else ratChars q

theorem isDecChar_sep {a : Char} (h : isDecChar a = true) : a ∉ [' ', 'x', ',', '[', ']', 'V', 'M', 'P'] ∧ a ≠ '/' := by
  constructor
  · intro hm
    simp only [List.mem_cons, List.not_mem_nil, or_false] at hm
    rcases hm with rfl | rfl | rfl | rfl | rfl | rfl | rfl | rfl <;> cases h
  · rintro rfl
    cases h

/-- C84: the assumptions of C53 about the format of numbers hold. -/
theorem floatFormat_format (t : ℤ) : NumFormat (floatFormat t) where
  inj := by
    have key : ∀ {p q : ℚ}, F64.ofRat p = .fin p → fmtFloat t (.fin p) ≠ ratChars q := by
      intro p q hp h
      have := (fmtFloat_chars t ⟨p, rfl, hp⟩).2 '/' (by rw [h]; simp [ratChars])
      cases this
    intro p q h
    unfold floatFormat at h
    split at h
    · rename_i hp
      split at h
      · rename_i hq
        have := float_text_inj t (.inr (.inr ⟨p, rfl, hp⟩)) (.inr (.inr ⟨q, rfl, hq⟩)) h
        injection this
      · exact absurd h (key hp)
    · split at h
      · rename_i hq
        exact absurd h.symm (key hq)
      · exact ratChars_format.inj h
  ne := by
    intro c
    unfold floatFormat
    split
    · rename_i hc
      exact (fmtFloat_chars t ⟨c, rfl, hc⟩).1
    · exact ratChars_format.ne c
  chars := by
    intro c a ha
    unfold floatFormat at ha
    split at ha
    · rename_i hc
      exact (isDecChar_sep ((fmtFloat_chars t ⟨c, rfl, hc⟩).2 a ha)).1
    · exact ratChars_format.chars c a ha

/-! ## The same expression over the rational numbers -/

/-- A variable with the same identity, whose bounds pass `Check` if those of `v` do. -/
def Var.plain (v : Var F64) : Var ℚ := ⟨v.id, 0, if le v.upper v.lower then 0 else 1, v.vtype, v.name, v.env⟩

def Mono.plain (m : Mono F64) : Mono ℚ := ⟨m.coeff.val, m.exps, m.vars.map Var.plain⟩

def Poly.plain (p : Poly F64) : Poly ℚ := ⟨p.monos.map Mono.plain⟩

def Scalar.plain : Scalar F64 → Scalar ℚ
  | .k c => .k c.val
  | .var v => .var v.plain
  | .mono m => .mono m.plain
  | .poly p => .poly p.plain

def Vec.plain : Vec F64 → Vec ℚ
  | .k l => .k (l.map F64.val)
  | .v l => .v (l.map Var.plain)
  | .m l => .m (l.map Mono.plain)
  | .p l => .p (l.map Poly.plain)

def Mat.plain : Mat F64 → Mat ℚ
  | .k l => .k (l.map (·.map F64.val))
  | .v l => .v (l.map (·.map Var.plain))
  | .m l => .m (l.map (·.map Mono.plain))
  | .p l => .p (l.map (·.map Poly.plain))

def Expr.plain : Expr F64 → Expr ℚ
  | .s a => .s a.plain
  | .v a => .v a.plain
  | .m a => .m a.plain

theorem Var.plain_le (v : Var F64) : (le v.plain.upper v.plain.lower : Bool) = le v.upper v.lower := by
  show decide ((if le v.upper v.lower then (0 : ℚ) else 1) ≤ 0) = le v.upper v.lower
  cases le v.upper v.lower <;> simp

theorem Var.plain_check (v : Var F64) : v.plain.check = v.check := by
  unfold Var.check
  rw [Var.plain_le]

theorem Mono.plain_check (m : Mono F64) : m.plain.check = m.check := by
  unfold Mono.check Mono.plain
  simp

theorem forM_map {α β : Type} (f : α → β) (g : β → Go Unit) (l : List α) : (l.map f).forM g = l.forM fun a => g (f a) := by
  induction l with
  | nil => rfl
  | cons a l ih =>
    show (do g (f a); (l.map f).forM g) = (do g (f a); l.forM fun a => g (f a))
    rw [ih]

theorem Poly.plain_check (p : Poly F64) : p.plain.check = p.check := by
  unfold Poly.check Poly.plain
  simp only [List.map_eq_nil_iff, forM_map, Mono.plain_check]

theorem Scalar.plain_check (a : Scalar F64) : a.plain.check = a.check := by
  cases a with
  | k c => rfl
  | var v => exact v.plain_check
  | mono m => exact m.plain_check
  | poly p => exact p.plain_check

theorem Vec.plain_check (a : Vec F64) : a.plain.check = a.check := by
  cases a <;> simp only [Vec.plain, Vec.check, List.map_eq_nil_iff, forM_map, Mono.plain_check, Poly.plain_check,
    Var.plain_check]

theorem checkRows_map {α β : Type} {f : α → β} {g : β → Go Unit} {h : α → Go Unit} (hg : ∀ a, g (f a) = h a)
    (l : List (List α)) : checkRows (l.map (·.map f)) g = checkRows l h := by
  cases l with
  | nil => rfl
  | cons r l =>
    unfold checkRows
    simp only [List.map_cons]
    rw [← List.map_cons (f := fun x => List.map f x), forM_map, forM_map]
    simp only [List.length_map, forM_map, hg]

theorem Mat.plain_check (a : Mat F64) : a.plain.check = a.check := by
  cases a with
  | k l => rfl
  | v l => exact checkRows_map Var.plain_check l
  | m l => exact checkRows_map Mono.plain_check l
  | p l => exact checkRows_map Poly.plain_check l

theorem rowDims_map {α β : Type} (f : α → β) (l : List (List α)) : rowDims (l.map (·.map f)) = rowDims l := by
  cases l with
  | nil => rfl
  | cons r l => simp [rowDims]

theorem Mat.plain_dims (a : Mat F64) : a.plain.dims = a.dims := by
  unfold Mat.dims
  rw [Mat.plain_check]
  cases a <;> simp only [Mat.plain, rowDims_map]

/-! ## The same text -/

section
variable {t : ℤ}

theorem fmt_plain {c : F64} (h : c.IsFloat) : floatFormat t c.val = fmtFloat t c := by
  obtain ⟨q, rfl, hq⟩ := h
  exact if_pos hq

theorem factorChars_plain (vs : List (Var F64)) (es : List Int) : factorChars (vs.map Var.plain) es = factorChars vs es := by
  induction vs generalizing es with
  | nil => cases es <;> rfl
  | cons v vs ih =>
    cases es with
    | nil => rfl
    | cons e es =>
      simp only [List.map_cons, factorChars, ih]
      rfl

theorem Mono.plain_chars {m : Mono F64} (h : m.coeff.IsFloat) :
    m.plain.chars (floatFormat t) = m.chars (fmtFloat t) := by
  unfold Mono.chars
  rw [Mono.plain_check]
  have e1 : (feq m.plain.coeff one : Bool) = feq m.coeff one := by
    obtain ⟨q, hq, -⟩ := h
    unfold Mono.plain
    rw [hq]
    rfl
  simp only [e1]
  unfold Mono.plain
  simp only [fmt_plain h, factorChars_plain, List.map_eq_nil_iff, ne_eq]

theorem absVal_float {c : F64} (h : c.IsFloat) : (absVal c).IsFloat ∧ (absVal c).val = absVal c.val := by
  obtain ⟨q, rfl, hq⟩ := h
  show F64.IsFloat (if decide (q < 0) = true then .fin (-q) else if decide (q = 0) = true then .fin 0 else .fin q) ∧
    F64.val (if decide (q < 0) = true then .fin (-q) else if decide (q = 0) = true then .fin 0 else .fin q) =
      if decide (q < 0) = true then -q else if decide (q = 0) = true then 0 else q
  split
  · exact ⟨⟨_, rfl, F64.ofRat_neg hq⟩, rfl⟩
  · split
    · rename_i h0
      rw [of_decide_eq_true h0] at hq
      exact ⟨⟨_, rfl, hq⟩, rfl⟩
    · exact ⟨⟨_, rfl, hq⟩, rfl⟩

theorem tail_plain {l : List (Mono F64)} (h : ∀ m ∈ l, m.coeff.IsFloat) :
    tailChars (floatFormat t) (l.map Mono.plain) = tailChars (fmtFloat t) l := by
  induction l with
  | nil => rfl
  | cons m l ih =>
    have hm := h m List.mem_cons_self
    have e1 : (le zero m.plain.coeff : Bool) = le zero m.coeff := by
      obtain ⟨q, hq, -⟩ := hm
      unfold Mono.plain
      rw [hq]
      rfl
    have e2 : Mono.chars (floatFormat t) { m.plain with coeff := absVal m.plain.coeff } =
        Mono.chars (fmtFloat t) { m with coeff := absVal m.coeff } := by
      rw [← Mono.plain_chars (m := { m with coeff := absVal m.coeff }) (absVal_float hm).1]
      unfold Mono.plain
      simp only [(absVal_float hm).2]
    simp only [List.map_cons, tailChars, e1, e2, ih fun m' hm' => h m' (List.mem_cons_of_mem _ hm')]

theorem Poly.plain_chars {p : Poly F64} (h : ∀ m ∈ p.monos, m.coeff.IsFloat) :
    p.plain.chars (floatFormat t) = p.chars (fmtFloat t) := by
  unfold Poly.chars
  rw [Poly.plain_check]
  obtain ⟨l⟩ := p
  cases l with
  | nil => rfl
  | cons m l =>
    simp only [Poly.plain, List.map_cons]
    rw [Mono.plain_chars (h m List.mem_cons_self), tail_plain fun m' hm' => h m' (List.mem_cons_of_mem _ hm')]

/-- The coefficients of all entries are finite floats. -/
def Expr.Floats (e : Expr F64) : Prop := ∀ row ∈ e.grid, ∀ a ∈ row, a.Floats

theorem Scalar.plain_chars {a : Scalar F64} (h : a.Floats) :
    a.plain.chars (floatFormat t) = a.chars (fmtFloat t) := by
  cases a with
  | k c => exact congrArg Except.ok (fmt_plain (h _ List.mem_cons_self))
  | var v => rfl
  | mono m => exact Mono.plain_chars (h m List.mem_cons_self)
  | poly p => exact Poly.plain_chars h

theorem mapM_plain {α β γ : Type} {f : α → β} {g : β → Go γ} {h : α → Go γ} {l : List α} (hg : ∀ a ∈ l, g (f a) = h a) :
    (l.map f).mapM g = l.mapM h := by
  induction l with
  | nil => rfl
  | cons a l ih =>
    rw [List.map_cons, List.mapM_cons, List.mapM_cons, hg a List.mem_cons_self,
      ih fun b hb => hg b (List.mem_cons_of_mem _ hb)]

theorem map_plain {α β γ : Type} {f : α → β} {g : β → γ} {h : α → γ} {l : List α} (hg : ∀ a ∈ l, g (f a) = h a) :
    (l.map f).map g = l.map h := by
  rw [List.map_map]
  exact List.map_congr_left hg

theorem Vec.plain_chars {a : Vec F64} (h : (Expr.v a).Floats) :
    a.plain.chars (floatFormat t) = a.chars (fmtFloat t) := by
  have h' : ∀ x ∈ a.entries, x.Floats := fun x hx => h [x] (List.mem_map.mpr ⟨x, hx, rfl⟩) x List.mem_cons_self
  have hc := Vec.plain_check a
  cases a with
  | k l =>
    have : ∀ c ∈ l, floatFormat t c.val = fmtFloat t c := fun c hx =>
      fmt_plain (h' (.k c) (List.mem_map.mpr ⟨c, hx, rfl⟩) _ List.mem_cons_self)
    simp only [Vec.plain, Vec.chars, List.length_map, map_plain this]
  | v l =>
    simp only [Vec.plain] at hc
    simp only [Vec.plain, Vec.chars, List.length_map, hc, map_plain (f := Var.plain) (g := (·.name.toList))
      (h := (·.name.toList)) (l := l) fun _ _ => rfl]
  | m l =>
    have : ∀ m ∈ l, m.plain.chars (floatFormat t) = m.chars (fmtFloat t) := fun m hx =>
      Mono.plain_chars (h' (.mono m) (List.mem_map.mpr ⟨m, hx, rfl⟩) _ List.mem_cons_self)
    simp only [Vec.plain] at hc
    simp only [Vec.plain, Vec.chars, List.length_map, hc, mapM_plain this]
  | p l =>
    have : ∀ p ∈ l, p.plain.chars (floatFormat t) = p.chars (fmtFloat t) := fun p hx =>
      Poly.plain_chars (h' (.poly p) (List.mem_map.mpr ⟨p, hx, rfl⟩))
    simp only [Vec.plain] at hc
    simp only [Vec.plain, Vec.chars, List.length_map, hc, mapM_plain this]

theorem zipIdx_flatMap {α β : Type} {f : α → β} {g : β × ℕ → List Char} {h : α × ℕ → List Char} {l : List α} {n : ℕ}
    (hg : ∀ a ∈ l, ∀ i, g (f a, i) = h (a, i)) : ((l.map f).zipIdx n).flatMap g = (l.zipIdx n).flatMap h := by
  induction l generalizing n with
  | nil => rfl
  | cons a l ih =>
    rw [List.map_cons, List.zipIdx_cons, List.zipIdx_cons, List.flatMap_cons, List.flatMap_cons, hg a List.mem_cons_self,
      ih fun b hb => hg b (List.mem_cons_of_mem _ hb)]

theorem Mat.plain_chars {a : Mat F64} (h : (Expr.m a).Floats) :
    a.plain.chars (floatFormat t) = a.chars (fmtFloat t) := by
  have hc := Mat.plain_check a
  have hd := Mat.plain_dims a
  cases a with
  | k l =>
    have : ∀ r ∈ l, ∀ c ∈ r, floatFormat t c.val = fmtFloat t c := fun r hr c hx =>
      fmt_plain (h _ (List.mem_map.mpr ⟨r, hr, rfl⟩) (.k c) (List.mem_map.mpr ⟨c, hx, rfl⟩) _ List.mem_cons_self)
    simp only [Mat.plain] at hd
    simp only [Mat.plain, Mat.chars, kmatChars, hd]
    congr 1
    funext d
    rw [zipIdx_flatMap]
    intro r hr i
    simp only [map_plain (this r hr)]
  | v l =>
    simp only [Mat.plain] at hc
    simp only [Mat.plain, Mat.chars, vmatChars, hc, List.length_map]
    congr 1
    funext d
    rw [map_plain]
    intro r hr
    simp only [List.length_map, map_plain (f := Var.plain) (g := (·.name.toList))
      (h := (·.name.toList)) (l := r) fun _ _ => rfl]
  | m l =>
    have : ∀ r ∈ l, ∀ m ∈ r, m.plain.chars (floatFormat t) = m.chars (fmtFloat t) := fun r hr m hx =>
      Mono.plain_chars (h _ (List.mem_map.mpr ⟨r, hr, rfl⟩) (.mono m) (List.mem_map.mpr ⟨m, hx, rfl⟩) _ List.mem_cons_self)
    simp only [Mat.plain] at hd
    simp only [Mat.plain, Mat.chars, mmatChars, hd, List.length_map]
    rw [mapM_plain (h := fun row => row.mapM (Mono.chars (fmtFloat t))) fun r hr => mapM_plain (this r hr)]
  | p l =>
    have : ∀ r ∈ l, ∀ p ∈ r, p.plain.chars (floatFormat t) = p.chars (fmtFloat t) := fun r hr p hx =>
      Poly.plain_chars (h _ (List.mem_map.mpr ⟨r, hr, rfl⟩) (.poly p) (List.mem_map.mpr ⟨p, hx, rfl⟩))
    simp only [Mat.plain] at hd
    simp only [Mat.plain, Mat.chars, pmatChars, hd]
    rw [mapM_plain (h := fun row => row.mapM (Poly.chars (fmtFloat t))) fun r hr => mapM_plain (this r hr)]

/-- C84: `String` of a `float64` expression, panics included. -/
theorem Expr.plain_chars {e : Expr F64} (h : e.Floats) : e.plain.chars (floatFormat t) = e.chars (fmtFloat t) := by
  cases e with
  | s a => exact Scalar.plain_chars (h [a] List.mem_cons_self a List.mem_cons_self)
  | v a => exact Vec.plain_chars h
  | m a => exact Mat.plain_chars h

end

/-! ## The hypotheses -/

theorem Var.plain_ok {v : Var F64} (h : v.OK) : v.plain.OK := by
  unfold Var.OK at h ⊢
  rw [Var.plain_le, h]

theorem Mono.plain_canon {m : Mono F64} (h : m.Canon) : m.plain.Canon := by
  refine ⟨by simpa [Mono.plain] using h.len, h.pos, ?_, ?_⟩
  · have : (m.plain.vars.map (·.id)) = m.vars.map (·.id) := by
      simp [Mono.plain, Var.plain, Function.comp_def]
    rw [this]; exact h.nodup
  · intro v hv
    obtain ⟨w, hw, rfl⟩ := List.mem_map.mp hv
    exact Var.plain_ok (h.ok w hw)

theorem Scalar.plain_canon {a : Scalar F64} (h : a.Canon) : a.plain.Canon := by
  cases a with
  | k c => trivial
  | var v => exact Var.plain_ok h
  | mono m => exact Mono.plain_canon h
  | poly p =>
    have h' : p.Canon := h
    refine ⟨by simpa [Poly.plain] using h'.ne, fun m hm => ?_⟩
    obtain ⟨n, hn, rfl⟩ := List.mem_map.mp hm
    exact Mono.plain_canon (h'.all n hn)

theorem Scalar.plain_default {a : Scalar F64} (h : a.DefaultNames) : a.plain.DefaultNames := by
  have key : ∀ {l : List (Var F64)}, (∀ v ∈ l, v.name = s!"x_{v.id}") → ∀ v ∈ l.map Var.plain, v.name = s!"x_{v.id}" := by
    intro l hl v hv
    obtain ⟨w, hw, rfl⟩ := List.mem_map.mp hv
    exact hl w hw
  intro v hv
  cases a with
  | k c => exact hv.elim
  | var w =>
    cases (show v = w.plain from hv)
    exact h w rfl
  | mono m => exact key h v hv
  | poly p =>
    obtain ⟨n, hn, hv⟩ := hv
    obtain ⟨m, hm, rfl⟩ := List.mem_map.mp hn
    exact key (fun w hw => h w ⟨m, hm, hw⟩) v hv

theorem Expr.plain_grid (e : Expr F64) : e.plain.grid = e.grid.map (·.map Scalar.plain) := by
  cases e with
  | s a => rfl
  | v a => cases a <;> simp [Expr.plain, Expr.grid, Vec.plain, Vec.entries, Scalar.plain, Function.comp_def]
  | m a => cases a <;> simp [Expr.plain, Expr.grid, Mat.plain, Mat.entries, Scalar.plain, Function.comp_def]

theorem Expr.exact_grid (e : Expr F64) : e.exact.grid = e.grid.map (·.map Scalar.exact) := by
  cases e with
  | s a => rfl
  | v a => cases a <;> simp [Expr.exact, Expr.grid, Vec.exact, Vec.entries, Scalar.exact, Poly.exact, Function.comp_def]
  | m a => cases a <;> simp [Expr.exact, Expr.grid, Mat.exact, Mat.entries, Scalar.exact, Poly.exact, Function.comp_def]

theorem Expr.plain_canon {e : Expr F64} (h : e.Canon) : e.plain.Canon := by
  intro row hr a ha
  rw [Expr.plain_grid] at hr
  obtain ⟨r, hr', rfl⟩ := List.mem_map.mp hr
  obtain ⟨b, hb, rfl⟩ := List.mem_map.mp ha
  exact Scalar.plain_canon (h r hr' b hb)

theorem Expr.plain_shape {e : Expr F64} {r c : ℕ} (h : e.Shape r c) : e.plain.Shape r c := by
  refine ⟨by rw [Expr.plain_grid, List.length_map]; exact h.1, fun row hr => ?_⟩
  rw [Expr.plain_grid] at hr
  obtain ⟨r, hr', rfl⟩ := List.mem_map.mp hr
  rw [List.length_map]
  exact h.2 r hr'

theorem Expr.plain_default {e : Expr F64} (h : e.DefaultNames) : e.plain.DefaultNames := by
  rintro v ⟨row, hr, a, ha, hv⟩
  rw [Expr.plain_grid] at hr
  obtain ⟨r, hr', rfl⟩ := List.mem_map.mp hr
  obtain ⟨b, hb, rfl⟩ := List.mem_map.mp ha
  exact Scalar.plain_default (fun w hw => h w ⟨r, hr', b, hb, hw⟩) v hv

theorem Scalar.plain_written (a : Scalar F64) : a.plain.written = a.exact.written := by
  cases a <;> simp [Scalar.plain, Scalar.exact, Scalar.written, Mono.plain, Mono.exact, Poly.plain, Var.plain, Var.exact,
    Function.comp_def]

theorem Expr.plain_type (e : Expr F64) : e.plain.typeName = e.typeName := by
  cases e with
  | s a => rfl
  | v a => cases a <;> rfl
  | m a => cases a <;> rfl

/-! ## Theorems -/

section
variable {t : ℤ}

/-- C84: `String` of a well-formed `float64` expression does not panic. -/
theorem float_string_ok {e : Expr F64} {r c : ℕ} (h : e.Canon) (hf : e.Floats) (hs : e.Shape r c) (hr : 0 < r) :
    ∃ s, e.chars (fmtFloat t) = .ok s :=
  ⟨_, by rw [← Expr.plain_chars hf]; exact expr_chars (Expr.plain_canon h) (Expr.plain_shape hs) hr⟩

/-- C84: two well-formed `float64` expressions over variables with default names that print alike have the same type
(scalars aside) and the same shape, and in every entry the same terms with the same coefficients are written. -/
theorem float_string_written_partial {a b : Expr F64} {r c r' c' : ℕ} (ha : a.Canon) (hb : b.Canon) (fa : a.Floats)
    (fb : b.Floats) (da : a.DefaultNames) (db : b.DefaultNames) (sa : a.Shape r c) (sb : b.Shape r' c') (hr : 0 < r)
    (hr' : 0 < r') (h : a.chars (fmtFloat t) = b.chars (fmtFloat t)) :
    a.typeName = b.typeName ∧ a.exact.SameWritten b.exact := by
  rw [← Expr.plain_chars fa, ← Expr.plain_chars fb] at h
  obtain ⟨h1, h2⟩ := string_written_partial (floatFormat_format t) (Expr.plain_canon ha) (Expr.plain_canon hb)
    (Expr.plain_default da) (Expr.plain_default db) (Expr.plain_shape sa) (Expr.plain_shape sb) hr hr' h
  rw [Expr.plain_type, Expr.plain_type] at h1
  refine ⟨h1, ?_⟩
  unfold Expr.SameWritten at h2 ⊢
  rw [Expr.plain_grid, Expr.plain_grid, List.forall₂_map_left_iff, List.forall₂_map_right_iff] at h2
  rw [Expr.exact_grid, Expr.exact_grid, List.forall₂_map_left_iff, List.forall₂_map_right_iff]
  refine h2.imp fun x y hxy => ?_
  rw [List.forall₂_map_left_iff, List.forall₂_map_right_iff] at hxy ⊢
  refine hxy.imp fun x y h => ?_
  rw [← Scalar.plain_written, ← Scalar.plain_written]
  exact h

/-- C84: ... and the same polynomials are denoted. -/
theorem float_string_den_partial {a b : Expr F64} {r c r' c' : ℕ} (ha : a.Canon) (hb : b.Canon) (fa : a.Floats)
    (fb : b.Floats) (da : a.DefaultNames) (db : b.DefaultNames) (sa : a.Shape r c) (sb : b.Shape r' c') (hr : 0 < r)
    (hr' : 0 < r') (h : a.chars (fmtFloat t) = b.chars (fmtFloat t)) : a.exact.denGrid = b.exact.denGrid := by
  have h2 := (float_string_written_partial ha hb fa fb da db sa sb hr hr' h).2
  unfold Expr.SameWritten at h2
  unfold Expr.denGrid
  rw [← List.forall₂_eq_eq_eq, List.forall₂_map_left_iff, List.forall₂_map_right_iff]
  refine h2.imp fun x y hxy => ?_
  rw [← List.forall₂_eq_eq_eq, List.forall₂_map_left_iff, List.forall₂_map_right_iff]
  exact hxy.imp fun x y h => written_den h

/-- C84: scalars, in both directions. -/
theorem float_scalar_string_iff {a b : Scalar F64} (ha : a.Canon) (hb : b.Canon) (fa : a.Floats) (fb : b.Floats)
    (da : a.DefaultNames) (db : b.DefaultNames) :
    a.chars (fmtFloat t) = b.chars (fmtFloat t) ↔ a.exact.written = b.exact.written := by
  rw [← Scalar.plain_chars fa, ← Scalar.plain_chars fb, scalar_string_iff (floatFormat_format t) (Scalar.plain_canon ha)
    (Scalar.plain_canon hb) (Scalar.plain_default da) (Scalar.plain_default db), Scalar.plain_written, Scalar.plain_written]

/-- C84: the text of a scalar constraint between `float64` expressions determines the sense and the terms on both
sides. -/
theorem float_constraint_string_partial {a b : SCon F64} (ha : a.Canon) (hb : b.Canon)
    (fa : a.lhs.Floats ∧ a.rhs.Floats) (fb : b.lhs.Floats ∧ b.rhs.Floats)
    (da : a.lhs.DefaultNames ∧ a.rhs.DefaultNames) (db : b.lhs.DefaultNames ∧ b.rhs.DefaultNames) :
    (∃ s, a.chars (fmtFloat t) = .ok s) ∧ (a.chars (fmtFloat t) = b.chars (fmtFloat t) →
      a.sense = b.sense ∧ a.lhs.exact.written = b.lhs.exact.written ∧ a.rhs.exact.written = b.rhs.exact.written) := by
  have key : ∀ {c : SCon F64}, c.lhs.Floats ∧ c.rhs.Floats →
      (SCon.mk c.lhs.plain c.rhs.plain c.sense).chars (floatFormat t) = c.chars (fmtFloat t) := by
    intro c h
    unfold SCon.chars SCon.check
    simp only [Scalar.plain_chars h.1, Scalar.plain_chars h.2, Scalar.plain_check]
  rw [← key fa, ← key fb]
  have := constraint_string_partial (floatFormat_format t) (a := ⟨a.lhs.plain, a.rhs.plain, a.sense⟩)
    (b := ⟨b.lhs.plain, b.rhs.plain, b.sense⟩) ⟨Scalar.plain_canon ha.lhs, Scalar.plain_canon ha.rhs, ha.sense⟩
    ⟨Scalar.plain_canon hb.lhs, Scalar.plain_canon hb.rhs, hb.sense⟩
    ⟨Scalar.plain_default da.1, Scalar.plain_default da.2⟩ ⟨Scalar.plain_default db.1, Scalar.plain_default db.2⟩
  simpa only [Scalar.plain_written] using this

/-- C84: the brackets of a printed `float64` expression balance, except for matrices of constants. -/
theorem float_brackets_partial {e : Expr F64} {r c : ℕ} (h : e.Canon) (hf : e.Floats) (hd : e.DefaultNames)
    (hs : e.Shape r c) (hr : 0 < r) : ∃ s, e.chars (fmtFloat t) = .ok s ∧
      s.count '[' = s.count ']' + (if e.typeName = "KMatrix" then r - 1 else 0) := by
  rw [← Expr.plain_chars hf, ← Expr.plain_type]
  exact string_brackets_partial (floatFormat_format t) (Expr.plain_canon h) (Expr.plain_default hd) (Expr.plain_shape hs) hr

end

/-! ## Witnesses -/

/-- A `float64` variable with its default name. -/
def fdv (i : ℕ) : Var F64 := ⟨i, .inf true, .inf false, 67, s!"x_{i}", 0⟩

/-- `0.1 x_0^2 x_1 - 2.5 x_1 + 1e+23` -/
def fdp : Poly F64 := ⟨[⟨F64.ofRat (1 / 10), [2, 1], [fdv 0, fdv 1]⟩, ⟨F64.ofRat (-5 / 2), [1], [fdv 1]⟩,
  ⟨F64.ofRat (10 ^ 23), [], []⟩]⟩

theorem fdp_canon : fdp.Canon := by
  refine ⟨by simp [fdp], ?_⟩
  intro m hm
  simp only [fdp, List.mem_cons, List.not_mem_nil, or_false] at hm
  rcases hm with rfl | rfl | rfl
  · exact ⟨rfl, by decide, by decide, by intro v hv; simp at hv; rcases hv with rfl | rfl <;> rfl⟩
  · exact ⟨rfl, by decide, by decide, by intro v hv; simp at hv; subst hv; rfl⟩
  · exact ⟨rfl, by simp, by simp, by simp⟩

theorem fdp_floats : (Scalar.poly fdp).Floats := by
  intro m hm
  simp only [Scalar.terms, fdp, List.mem_cons, List.not_mem_nil, or_false] at hm
  rcases hm with rfl | rfl | rfl
  · exact ⟨round53 (1 / 10), by decide +kernel, by decide +kernel⟩
  · exact ⟨-5 / 2, by decide +kernel, by decide +kernel⟩
  · exact ⟨round53 (10 ^ 23), by decide +kernel, by decide +kernel⟩

theorem fdp_default : (Scalar.poly fdp).DefaultNames := by
  rintro v ⟨m, hm, hv⟩
  simp only [fdp, List.mem_cons, List.not_mem_nil, or_false] at hm
  rcases hm with rfl | rfl | rfl <;> simp only [List.mem_cons, List.not_mem_nil, or_false] at hv
  · rcases hv with rfl | rfl <;> rfl
  · subst hv; rfl

/-- The hypotheses of the theorems hold for a vector. -/
example : (Expr.v (.p [fdp, fdp])).Canon ∧ (Expr.v (.p [fdp, fdp])).Floats ∧ (Expr.v (.p [fdp, fdp])).DefaultNames ∧
    (Expr.v (.p [fdp, fdp])).Shape 2 1 := by
  have key : ∀ row ∈ (Expr.v (.p [fdp, fdp])).grid, ∀ a ∈ row, a = .poly fdp := by
    simp [Expr.grid, Vec.entries]
  refine ⟨fun row hr a ha => ?_, fun row hr a ha => ?_, ?_, rfl, by simp [Expr.grid, Vec.entries]⟩
  · rw [key row hr a ha]; exact fdp_canon
  · rw [key row hr a ha]; exact fdp_floats
  · rintro v ⟨row, hr, a, ha, hv⟩
    rw [key row hr a ha] at hv
    exact fdp_default v hv

/-- What is printed. -/
example : (Scalar.poly fdp).chars (fmtFloat 21) = .ok "0.1 x_0^2x_1 - 2.5 x_1 + 1e+23".toList := by decide +kernel

/-- C84 is false for names chosen by the client. -/
theorem float_string_names_false :
    (Scalar.mono ⟨.fin 1, [1, 1], [{ fdv 0 with name := "a" }, { fdv 1 with name := "b" }]⟩).chars (fmtFloat 21) =
      (Scalar.var { fdv 2 with name := "ab" }).chars (fmtFloat 21) := by decide +kernel

/-- Coefficients that are not finite, which the theorems leave out: after the first term, `NaN` and minus infinity are
printed with the operator of a negative number and with what `math.Abs` returns. -/
example :
    (Scalar.poly ⟨[⟨.fin 1, [], []⟩, ⟨.nan, [1], [fdv 0]⟩]⟩ : Scalar F64).chars (fmtFloat 21) =
      .ok "1 - NaN x_0".toList ∧
    (Scalar.poly ⟨[⟨.fin 1, [], []⟩, ⟨.inf true, [1], [fdv 0]⟩]⟩ : Scalar F64).chars (fmtFloat 21) =
      .ok "1 - +Inf x_0".toList := by decide +kernel

end Verif
