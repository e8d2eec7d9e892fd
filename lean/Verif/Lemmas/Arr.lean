import Verif.Lemmas.Families
import Verif.SpecArray

/-!
# Indexed lists and arrays
-/

namespace Verif

/-- `l` has `n` elements, the `i`-th of which satisfies `Q i`. -/
def LArr {α : Type} (n : ℕ) (Q : ℕ → α → Prop) (l : List α) : Prop :=
  l.length = n ∧ ∀ i a, l[i]? = some a → Q i a

namespace LArr

variable {α β : Type} {n : ℕ} {Q : ℕ → α → Prop} {Q' : ℕ → β → Prop} {l : List α}

theorem nil (Q : ℕ → α → Prop) : LArr 0 Q [] := ⟨rfl, by simp⟩

theorem cons_iff {a : α} : LArr (n + 1) Q (a :: l) ↔ Q 0 a ∧ LArr n (fun i => Q (i + 1)) l := by
  constructor
  · rintro ⟨h1, h2⟩
    exact ⟨h2 0 a rfl, by simpa using h1, fun i b hb => h2 (i + 1) b (by simpa using hb)⟩
  · rintro ⟨h1, h2, h3⟩
    refine ⟨by simpa using h2, ?_⟩
    intro i b hb
    cases i with
    | zero => simp at hb; subst hb; exact h1
    | succ i => exact h3 i b (by simpa using hb)

theorem lt (h : LArr n Q l) {i : ℕ} {a : α} (hi : l[i]? = some a) : i < n := by
  rw [← h.1]
  by_contra hc
  rw [List.getElem?_eq_none (by omega)] at hi
  exact absurd hi (by simp)

theorem get (h : LArr n Q l) {i : ℕ} (hi : i < n) : ∃ a, l[i]? = some a ∧ Q i a := by
  have hl : i < l.length := by rw [h.1]; exact hi
  exact ⟨l[i], List.getElem?_eq_getElem hl, h.2 i _ (List.getElem?_eq_getElem hl)⟩

theorem mem (h : LArr n Q l) {a : α} (ha : a ∈ l) : ∃ i, i < n ∧ Q i a := by
  obtain ⟨i, hi⟩ := List.mem_iff_getElem?.mp ha
  exact ⟨i, h.lt hi, h.2 i a hi⟩

theorem mono (h : LArr n Q l) {Q2 : ℕ → α → Prop} (hQ : ∀ i a, i < n → Q i a → Q2 i a) :
    LArr n Q2 l :=
  ⟨h.1, fun i a hi => hQ i a (h.lt hi) (h.2 i a hi)⟩

theorem of_all (hl : l.length = n) (h : ∀ i a, i < n → a ∈ l → Q i a) : LArr n Q l := by
  refine ⟨hl, fun i a hi => h i a ?_ (List.mem_of_getElem? hi)⟩
  rw [← hl]
  by_contra hc
  rw [List.getElem?_eq_none (by omega)] at hi
  exact absurd hi (by simp)

theorem map_iff {f : α → β} : LArr n Q' (l.map f) ↔ LArr n (fun i a => Q' i (f a)) l := by
  unfold LArr
  rw [List.length_map]
  refine and_congr_right fun _ => ?_
  constructor
  · intro h i a hi
    exact h i (f a) (by rw [List.getElem?_map, hi]; rfl)
  · intro h i b hb
    rw [List.getElem?_map] at hb
    cases hi : l[i]? with
    | none => rw [hi] at hb; simp at hb
    | some a => rw [hi] at hb; simp at hb; subst hb; exact h i a hi

theorem map (h : LArr n Q l) {f : α → β} (hf : ∀ i a, i < n → Q i a → Q' i (f a)) :
    LArr n Q' (l.map f) := map_iff.mpr (h.mono hf)

theorem range (n : ℕ) : LArr n (fun i a => a = i) (List.range n) := by
  refine ⟨List.length_range, ?_⟩
  intro i a hi
  have : i < n := by
    by_contra hc
    rw [List.getElem?_eq_none (by simpa using hc)] at hi
    exact absurd hi (by simp)
  rw [List.getElem?_range this] at hi
  simpa using hi.symm

theorem zipIdx (h : LArr n Q l) : LArr n (fun i (xi : α × ℕ) => Q i xi.1 ∧ xi.2 = i) l.zipIdx := by
  refine ⟨by simpa using h.1, ?_⟩
  intro i a hi
  rw [List.getElem?_zipIdx] at hi
  cases hl : l[i]? with
  | none => rw [hl] at hi; simp at hi
  | some x => rw [hl] at hi; simp at hi; subst hi; exact ⟨h.2 i x hl, rfl⟩

theorem replicate {a : α} (h : ∀ i, i < n → Q i a) : LArr n Q (List.replicate n a) :=
  of_all (by simp) (fun i b hi hb => by rw [List.eq_of_mem_replicate hb]; exact h i hi)

theorem zipWith {γ : Type} {Q2 : ℕ → γ → Prop} {l' : List β} (h : LArr n Q l) (h' : LArr n Q' l')
    {f : α → β → γ} (hf : ∀ i a b, i < n → Q i a → Q' i b → Q2 i (f a b)) :
    LArr n Q2 (List.zipWith f l l') := by
  refine ⟨by simp [h.1, h'.1], ?_⟩
  intro i c hc
  rw [List.getElem?_zipWith] at hc
  cases h1 : l[i]? with
  | none => rw [h1] at hc; simp at hc
  | some a =>
    cases h2 : l'[i]? with
    | none => rw [h1, h2] at hc; simp at hc
    | some b =>
      rw [h1, h2] at hc
      simp at hc
      subst hc
      exact hf i a b (h.lt h1) (h.2 i a h1) (h'.2 i b h2)

/-- `mapM` over an indexed list. -/
theorem mapM {f : α → Go β} (h : LArr n Q l)
    (hf : ∀ i a, i < n → Q i a → Go.Ok (f a) (Q' i)) : Go.Ok (l.mapM f) (LArr n Q') := by
  induction l generalizing n Q Q' with
  | nil =>
    have : n = 0 := h.1.symm
    subst this
    exact ⟨[], by simp [Go.pure_eq], LArr.nil _⟩
  | cons a l ih =>
    obtain ⟨n, rfl⟩ : ∃ k, n = k + 1 := ⟨l.length, h.1.symm⟩
    rw [cons_iff] at h
    rw [List.mapM_cons]
    refine Go.Ok.bind (hf 0 a (by omega) h.1) fun b hb => ?_
    refine Go.Ok.bind (ih (Q' := fun i => Q' (i + 1)) h.2
      (fun i a hi hq => hf (i + 1) a (by omega) hq)) fun bs hbs => ?_
    exact Go.ok_pure (cons_iff.mpr ⟨hb, hbs⟩)

/-- A fold over an indexed list. -/
theorem foldlM {f : β → α → Go β} {I : ℕ → β → Prop} {b : β} (h : LArr n Q l) (hb : I 0 b)
    (hf : ∀ i b a, i < n → I i b → Q i a → Go.Ok (f b a) (I (i + 1))) :
    Go.Ok (l.foldlM f b) (I n) := by
  induction l generalizing n Q I b with
  | nil =>
    have : n = 0 := h.1.symm
    subst this
    exact ⟨b, rfl, hb⟩
  | cons a l ih =>
    obtain ⟨n, rfl⟩ : ∃ k, n = k + 1 := ⟨l.length, h.1.symm⟩
    rw [cons_iff] at h
    rw [List.foldlM_cons]
    refine Go.Ok.bind (hf 0 b a (by omega) hb h.1) fun b' hb' => ?_
    exact ih (I := fun i => I (i + 1)) h.2 hb'
      (fun i b a hi hI hq => hf (i + 1) b a (by omega) hI hq)

theorem goGet (h : LArr n Q l) {i : ℕ} (hi : i < n) : Go.Ok (goGet l (i : Int)) (Q i) := by
  obtain ⟨a, h1, h2⟩ := h.get hi
  refine ⟨a, ?_, h2⟩
  unfold Verif.goGet
  rw [if_neg (by omega)]
  simp [h1, Go.pure_eq]

theorem goGet_eq {i : ℕ} {a : α} (hi : l[i]? = some a) :
    Verif.goGet l (i : Int) = .ok a := by
  unfold Verif.goGet
  rw [if_neg (by omega)]
  simp [hi, Go.pure_eq]

end LArr

/-- `g` consists of `r` rows of `c` entries, entry `(i, j)` satisfying `Q i j`. -/
def Arr {α : Type} (r c : ℕ) (Q : ℕ → ℕ → α → Prop) (g : List (List α)) : Prop :=
  LArr r (fun i => LArr c (Q i)) g

namespace Arr

variable {α β : Type} {r c : ℕ} {Q : ℕ → ℕ → α → Prop} {Q' : ℕ → ℕ → β → Prop} {g : List (List α)}

theorem mono (h : Arr r c Q g) {Q2 : ℕ → ℕ → α → Prop}
    (hQ : ∀ i j a, i < r → j < c → Q i j a → Q2 i j a) : Arr r c Q2 g :=
  LArr.mono h fun i _ hi hrow => hrow.mono fun j a hj => hQ i j a hi hj

theorem map_iff {f : α → β} :
    Arr r c Q' (g.map (·.map f)) ↔ Arr r c (fun i j a => Q' i j (f a)) g := by
  unfold Arr
  rw [LArr.map_iff]
  constructor
  · exact fun h => h.mono fun i _ _ hr => LArr.map_iff.mp hr
  · exact fun h => h.mono fun i _ _ hr => LArr.map_iff.mpr hr

theorem map (h : Arr r c Q g) {f : α → β} (hf : ∀ i j a, i < r → j < c → Q i j a → Q' i j (f a)) :
    Arr r c Q' (g.map (·.map f)) := map_iff.mpr (h.mono hf)

theorem mapM {f : α → Go β} (h : Arr r c Q g)
    (hf : ∀ i j a, i < r → j < c → Q i j a → Go.Ok (f a) (Q' i j)) :
    Go.Ok (g.mapM (·.mapM f)) (Arr r c Q') :=
  LArr.mapM h fun i _ hi hrow => hrow.mapM fun j a hj => hf i j a hi hj

theorem mapRange {F : ℕ → ℕ → Go β} (r c : ℕ)
    (hF : ∀ i j, i < r → j < c → Go.Ok (F i j) (Q' i j)) :
    Go.Ok ((List.range r).mapM fun i => (List.range c).mapM fun j => F i j) (Arr r c Q') :=
  LArr.mapM (LArr.range r) fun i a hi ha => by
    subst ha
    exact LArr.mapM (LArr.range c) fun j b hj hb => by
      subst hb
      exact hF _ _ hi hj

theorem rowLen (h : Arr r c Q g) {row : List α} (hr : row ∈ g) : row.length = c := by
  obtain ⟨i, -, hi⟩ := LArr.mem h hr
  exact hi.1

theorem rowDims (h : Arr r c Q g) (hr : 0 < r) : rowDims g = .ok (r, c) := by
  cases g with
  | nil => exact absurd h.1 (by simp; omega)
  | cons r0 rest =>
    have := h.1
    have h0 := h.rowLen (List.mem_cons_self ..)
    simp only [List.length_cons] at this
    simp [Verif.rowDims, Go.pure_eq, h0, this]

theorem mem (h : Arr r c Q g) {row : List α} (hrow : row ∈ g) {a : α} (ha : a ∈ row) :
    ∃ i j, i < r ∧ j < c ∧ Q i j a := by
  obtain ⟨i, hi, h2⟩ := LArr.mem h hrow
  obtain ⟨j, hj, h3⟩ := h2.mem ha
  exact ⟨i, j, hi, hj, h3⟩

theorem goGet2 (h : Arr r c Q g) {i j : ℕ} (hi : i < r) (hj : j < c) :
    Go.Ok (goGet2 g i j) (Q i j) :=
  Go.Ok.bind (LArr.goGet h hi) fun _ hrow => hrow.goGet hj

/-- Two arrays are equal when they agree entry by entry. -/
theorem of_eq {g' : List (List α)} (h : Arr r c Q g) (h' : Arr r c (fun i j a => ∀ b, Q i j b → b = a) g') :
    g = g' := by
  refine List.ext_getElem? fun i => ?_
  by_cases hi : i < r
  · obtain ⟨row, h1, h2⟩ := LArr.get h hi
    obtain ⟨row', h1', h2'⟩ := LArr.get h' hi
    rw [h1, h1']
    congr 1
    refine List.ext_getElem? fun j => ?_
    by_cases hj : j < c
    · obtain ⟨a, h3, h4⟩ := h2.get hj
      obtain ⟨a', h3', h4'⟩ := h2'.get hj
      rw [h3, h3', h4' a h4]
    · rw [List.getElem?_eq_none (by rw [h2.1]; omega), List.getElem?_eq_none (by rw [h2'.1]; omega)]
  · rw [List.getElem?_eq_none (by rw [h.1]; omega), List.getElem?_eq_none (by rw [h'.1]; omega)]

end Arr

/-! ## Predicates preserved by conversion and simplification -/

variable {R : Type}

/-- `Q` is kept by the conversions between the kinds of scalars. -/
structure Conv [GoNum R] (Q : Scalar R → Prop) : Prop where
  poly : ∀ a, Q a → Q (.poly a.toPoly)
  mono : ∀ a m, Q a → a.toMono = .ok m → Q (.mono m)

/-- Predicates on entries that survive the conversions of `ConcretizeExpression` and
`AsSimplifiedExpression`. -/
structure Stable [GoNum R] (Q : Scalar R → Prop) : Prop extends Conv Q where
  check : ∀ a, Q a → a.check = .ok ()
  simp : ∀ a, Q a → Go.Ok a.asSimplified Q

theorem checkRows_ok {α : Type} {r c : ℕ} {Q : ℕ → ℕ → α → Prop} {g : List (List α)}
    (h : Arr r c Q g) (hr : 0 < r) {chk : α → Go Unit} (hc : ∀ i j a, Q i j a → chk a = .ok ()) :
    checkRows g chk = .ok () := by
  cases g with
  | nil => exact absurd h.1 (by simp; omega)
  | cons r0 rest =>
    unfold checkRows
    have h0 := h.rowLen (List.mem_cons_self ..)
    simp only []
    rw [Go.forM_ok _ _ (fun row hrow => by rw [h.rowLen hrow, h0]; simp [Go.pure_eq])]
    rw [Go.ok_bind, Go.forM_ok]
    intro row hrow
    refine Go.forM_ok _ _ fun a ha => ?_
    obtain ⟨i, j, -, -, hq⟩ := h.mem hrow ha
    exact hc i j a hq

/-- The vector `a` has `n` entries satisfying `Q`. -/
def VArr (n : ℕ) (Q : ℕ → Scalar R → Prop) (a : Vec R) : Prop := LArr n Q a.entries

/-- The matrix `a` is `r` by `c` with entries satisfying `Q`. -/
def MArr (r c : ℕ) (Q : ℕ → ℕ → Scalar R → Prop) (a : Mat R) : Prop := Arr r c Q a.entries

/-- The expression `e` is `r` by `c` with entries satisfying `Q`. -/
def EArr (r c : ℕ) (Q : ℕ → ℕ → Scalar R → Prop) (e : Expr R) : Prop := Arr r c Q e.grid

theorem earr_s {a : Scalar R} {Q : ℕ → ℕ → Scalar R → Prop} (h : Q 0 0 a) : EArr 1 1 Q (.s a) := by
  unfold EArr Arr Expr.grid
  exact LArr.cons_iff.mpr ⟨LArr.cons_iff.mpr ⟨h, LArr.nil _⟩, LArr.nil _⟩

theorem earr_s_iff {a : Scalar R} {Q : ℕ → ℕ → Scalar R → Prop} :
    EArr 1 1 Q (.s a) ↔ Q 0 0 a := by
  refine ⟨fun h => ?_, earr_s⟩
  exact (LArr.cons_iff.mp (LArr.cons_iff.mp h).1).1

theorem earr_v_iff {a : Vec R} {n : ℕ} {Q : ℕ → ℕ → Scalar R → Prop} :
    EArr n 1 Q (.v a) ↔ VArr n (fun i => Q i 0) a := by
  unfold EArr Arr Expr.grid VArr
  rw [LArr.map_iff]
  constructor
  · exact fun h => h.mono fun i a _ ha => (LArr.cons_iff.mp ha).1
  · exact fun h => h.mono fun i a _ ha => LArr.cons_iff.mpr ⟨ha, LArr.nil _⟩

theorem earr_v_cols {a : Vec R} {r c : ℕ} {Q : ℕ → ℕ → Scalar R → Prop} (hr : 0 < r)
    (h : EArr r c Q (.v a)) : c = 1 := by
  unfold EArr Expr.grid at h
  obtain ⟨row, h1, h2⟩ := LArr.get h hr
  rw [List.getElem?_map] at h1
  cases hx : a.entries[0]? with
  | none => rw [hx] at h1; simp at h1
  | some x => rw [hx] at h1; simp at h1; subst h1; exact h2.1.symm

theorem earr_m_iff {a : Mat R} {r c : ℕ} {Q : ℕ → ℕ → Scalar R → Prop} :
    EArr r c Q (.m a) ↔ MArr r c Q a := Iff.rfl

section
variable {n r c : ℕ} {Q : ℕ → Scalar R → Prop} {QQ : ℕ → ℕ → Scalar R → Prop}

theorem VArr.mono {a : Vec R} (h : VArr n Q a) {Q2 : ℕ → Scalar R → Prop}
    (hQ : ∀ i a, i < n → Q i a → Q2 i a) : VArr n Q2 a := LArr.mono h hQ

theorem MArr.mono {a : Mat R} (h : MArr r c QQ a) {Q2 : ℕ → ℕ → Scalar R → Prop}
    (hQ : ∀ i j a, i < r → j < c → QQ i j a → Q2 i j a) : MArr r c Q2 a := Arr.mono h hQ

theorem EArr.mono {a : Expr R} (h : EArr r c QQ a) {Q2 : ℕ → ℕ → Scalar R → Prop}
    (hQ : ∀ i j a, i < r → j < c → QQ i j a → Q2 i j a) : EArr r c Q2 a := Arr.mono h hQ

/-! ## Check, Dims, At -/

variable [GoNum R]

theorem VArr.check {a : Vec R} (h : VArr n Q a) (hn : 0 < n) (hQ : ∀ i x, Q i x → x.check = .ok ()) :
    a.check = .ok () := by
  cases a with
  | k l => rfl
  | v l =>
    refine Go.forM_ok _ _ fun v hv => ?_
    obtain ⟨i, -, hq⟩ := LArr.mem h (List.mem_map_of_mem hv)
    exact hQ i _ hq
  | m l =>
    have hne : l ≠ [] := by
      rintro rfl
      exact absurd h.1 (by simp [Vec.entries]; omega)
    unfold Vec.check
    simp only [if_neg hne]
    refine Go.forM_ok _ _ fun v hv => ?_
    obtain ⟨i, -, hq⟩ := LArr.mem h (List.mem_map_of_mem hv)
    exact hQ i _ hq
  | p l =>
    have hne : l ≠ [] := by
      rintro rfl
      exact absurd h.1 (by simp [Vec.entries]; omega)
    unfold Vec.check
    simp only [if_neg hne]
    refine Go.forM_ok _ _ fun v hv => ?_
    obtain ⟨i, -, hq⟩ := LArr.mem h (List.mem_map_of_mem hv)
    exact hQ i _ hq

theorem VArr.len {a : Vec R} (h : VArr n Q a) (hn : 0 < n) (hQ : ∀ i x, Q i x → x.check = .ok ()) :
    a.len = .ok n := by
  have hc := h.check hn hQ
  have hl := h.1
  cases a with
  | k l => simpa [Vec.len, Go.pure_eq, Vec.entries] using hl
  | v l => simpa [Vec.len, Go.pure_eq, Vec.entries] using hl
  | m l => simpa [Vec.len, Go.pure_eq, Vec.entries] using hl
  | p l =>
    unfold Vec.len
    simp only [hc, Go.ok_bind]
    simpa [Vec.len, Go.pure_eq, Vec.entries] using hl

theorem VArr.dims {a : Vec R} (h : VArr n Q a) (hn : 0 < n)
    (hQ : ∀ i x, Q i x → x.check = .ok ()) : a.dims = .ok (n, 1) := by
  unfold Vec.dims
  rw [h.len hn hQ]
  rfl

theorem MArr.check {a : Mat R} (h : MArr r c QQ a) (hr : 0 < r)
    (hQ : ∀ i j x, QQ i j x → x.check = .ok ()) : a.check = .ok () := by
  cases a with
  | k l => rfl
  | v l => exact checkRows_ok (Arr.map_iff.mp h) hr fun i j a ha => hQ i j _ ha
  | m l => exact checkRows_ok (Arr.map_iff.mp h) hr fun i j a ha => hQ i j _ ha
  | p l => exact checkRows_ok (Arr.map_iff.mp h) hr fun i j a ha => hQ i j _ ha

theorem MArr.dims {a : Mat R} (h : MArr r c QQ a) (hr : 0 < r)
    (hQ : ∀ i j x, QQ i j x → x.check = .ok ()) : a.dims = .ok (r, c) := by
  unfold Mat.dims
  rw [h.check hr hQ, Go.ok_bind]
  cases a with
  | k l => exact (Arr.map_iff.mp h).rowDims hr
  | v l => exact (Arr.map_iff.mp h).rowDims hr
  | m l => exact (Arr.map_iff.mp h).rowDims hr
  | p l => exact (Arr.map_iff.mp h).rowDims hr

theorem checkIndexMat_ok {i j r c : ℕ} (hi : i < r) (hj : j < c) :
    checkIndexMat (i : Int) (j : Int) (r, c) = .ok () := by
  unfold checkIndexMat
  rw [if_neg (by simp only []; omega), if_neg (by simp only []; omega)]
  rfl

theorem VArr.at {a : Vec R} (h : VArr n Q a) (hQ : ∀ i x, Q i x → x.check = .ok ()) {i : ℕ}
    (hi : i < n) : Go.Ok (a.at i 0) (Q i) := by
  have hc := h.check (by omega) hQ
  have hd := h.dims (by omega) hQ
  have hl := h.1
  have h0 : checkIndexMat (i : Int) 0 (n, 1) = .ok () := checkIndexMat_ok (j := 0) hi (by decide)
  cases a with
  | k l =>
    simp only [Vec.entries, List.length_map] at hl
    unfold Vec.at Vec.atVec
    simp only [hl, h0, Go.ok_bind]
    exact Go.Ok.bind ((LArr.map_iff.mp h).goGet hi) fun x hx => Go.ok_pure hx
  | v l =>
    simp only [Vec.entries, List.length_map] at hl
    unfold Vec.at
    simp only [hl, hc, h0, Go.ok_bind]
    exact Go.Ok.bind ((LArr.map_iff.mp h).goGet hi) fun x hx => Go.ok_pure hx
  | m l =>
    simp only [Vec.entries, List.length_map] at hl
    unfold Vec.at
    simp only [hl, hc, h0, Go.ok_bind]
    exact Go.Ok.bind ((LArr.map_iff.mp h).goGet hi) fun x hx => Go.ok_pure hx
  | p l =>
    unfold Vec.at
    simp only [hd, hc, h0, Go.ok_bind]
    exact Go.Ok.bind ((LArr.map_iff.mp h).goGet hi) fun x hx => Go.ok_pure hx

theorem VArr.atVec {a : Vec R} (h : VArr n Q a) (hQ : ∀ i x, Q i x → x.check = .ok ()) {i : ℕ}
    (hi : i < n) : Go.Ok (a.atVec i) (Q i) := by
  have hc := h.check (by omega) hQ
  have hd := h.dims (by omega) hQ
  have hl := h.1
  have h0 : checkIndexMat (i : Int) 0 (n, 1) = .ok () := checkIndexMat_ok (j := 0) hi (by decide)
  have h1 : checkIndexVec (i : Int) (n, 1) = .ok () := by
    unfold checkIndexVec
    rw [if_neg (by simp only []; omega)]
    rfl
  cases a with
  | k l =>
    simp only [Vec.entries, List.length_map] at hl
    unfold Vec.atVec
    simp only [hl, h0, Go.ok_bind]
    exact Go.Ok.bind ((LArr.map_iff.mp h).goGet hi) fun x hx => Go.ok_pure hx
  | v l =>
    simp only [Vec.entries, List.length_map] at hl
    unfold Vec.atVec
    simp only [hl, h0, Go.ok_bind]
    exact Go.Ok.bind ((LArr.map_iff.mp h).goGet hi) fun x hx => Go.ok_pure hx
  | m l =>
    unfold Vec.atVec
    simp only [hc, Go.ok_bind]
    exact Go.Ok.bind ((LArr.map_iff.mp h).goGet hi) fun x hx => Go.ok_pure hx
  | p l =>
    unfold Vec.atVec
    simp only [hd, hc, h1, Go.ok_bind]
    exact Go.Ok.bind ((LArr.map_iff.mp h).goGet hi) fun x hx => Go.ok_pure hx

omit [GoNum R] in
theorem kToDense_ok {rows : List (List R)} {Q : ℕ → ℕ → R → Prop} (h : Arr r c Q rows) (hr : 0 < r)
    (hc : 0 < c) : Go.Ok (kToDense rows) (Arr r c Q) := by
  unfold kToDense
  rw [h.rowDims hr, Go.ok_bind]
  simp only [if_neg (show ¬ c = 0 by omega)]
  show Go.Ok (rows.mapM fun row => (List.range c).mapM fun (j : ℕ) => goGet row (j : Int)) (Arr r c Q)
  refine LArr.mapM h fun i row hi hrow => ?_
  refine LArr.mapM (LArr.range c) fun j b hj hb => ?_
  subst hb
  exact hrow.goGet hj

theorem MArr.at {a : Mat R} (h : MArr r c QQ a) (hQ : ∀ i j x, QQ i j x → x.check = .ok ())
    {i j : ℕ} (hi : i < r) (hj : j < c) : Go.Ok (a.at i j) (QQ i j) := by
  have hc := h.check (by omega) hQ
  have hd := h.dims (by omega) hQ
  cases a with
  | k rows =>
    unfold Mat.at
    refine Go.Ok.bind (kToDense_ok (Arr.map_iff.mp h) (by omega) (by omega)) fun d hd => ?_
    exact Go.Ok.bind (hd.goGet2 hi hj) fun x hx => Go.ok_pure hx
  | v rows =>
    unfold Mat.at
    simp only [hc, Go.ok_bind]
    exact Go.Ok.bind ((Arr.map_iff.mp h).goGet2 hi hj) fun x hx => Go.ok_pure hx
  | m rows =>
    unfold Mat.at
    simp only [hc, Go.ok_bind]
    exact Go.Ok.bind ((Arr.map_iff.mp h).goGet2 hi hj) fun x hx => Go.ok_pure hx
  | p rows =>
    unfold Mat.at
    simp only [hc, hd, Go.ok_bind, checkIndexMat_ok hi hj]
    exact Go.Ok.bind ((Arr.map_iff.mp h).goGet2 hi hj) fun x hx => Go.ok_pure hx

theorem EArr.check {e : Expr R} (h : EArr r c QQ e) (hr : 0 < r)
    (hQ : ∀ i j x, QQ i j x → x.check = .ok ()) : e.check = .ok () := by
  cases e with
  | s a =>
    obtain ⟨i, j, -, -, hq⟩ := Arr.mem h (row := [a]) (by simp [Expr.grid]) (a := a) (by simp)
    exact hQ i j a hq
  | v a =>
    obtain rfl := earr_v_cols hr h
    exact (earr_v_iff.mp h).check hr fun i x hx => hQ i 0 x hx
  | m a => exact MArr.check h hr hQ

theorem EArr.dims {e : Expr R} (h : EArr r c QQ e) (hr : 0 < r)
    (hQ : ∀ i j x, QQ i j x → x.check = .ok ()) : e.dims = .ok (r, c) := by
  cases e with
  | s a =>
    have h1 : 1 = r := h.1
    have h2 := Arr.rowLen h (row := [a]) (by simp [Expr.grid])
    simp at h2
    rw [← h1, ← h2]
    rfl
  | v a =>
    obtain rfl := earr_v_cols hr h
    exact (earr_v_iff.mp h).dims hr fun i x hx => hQ i 0 x hx
  | m a => exact MArr.dims h hr hQ

theorem EArr.at {e : Expr R} (h : EArr r c QQ e) (hQ : ∀ i j x, QQ i j x → x.check = .ok ())
    {i j : ℕ} (hi : i < r) (hj : j < c) : Go.Ok (e.at i j) (QQ i j) := by
  cases e with
  | s a =>
    have h1 : 1 = r := h.1
    have h2 := Arr.rowLen h (row := [a]) (by simp [Expr.grid])
    simp at h2
    subst h1 h2
    have hi' : i = 0 := by omega
    have hj' : j = 0 := by omega
    subst hi' hj'
    have hq := earr_s_iff.mp h
    unfold Expr.at
    simp only [hQ _ _ _ hq, Go.ok_bind]
    exact ⟨a, rfl, hq⟩
  | v a =>
    obtain rfl := earr_v_cols (by omega) h
    have hj' : j = 0 := by omega
    subst hj'
    exact (earr_v_iff.mp h).at (fun i x hx => hQ i 0 x hx) hi
  | m a => exact MArr.at h hQ hi hj

/-! ## Concretize -/

theorem Scalar.toMono_ok {a : Scalar R} (h : a.isPoly = false) : ∃ m, a.toMono = .ok m := by
  cases a with
  | k c => exact ⟨_, rfl⟩
  | var v => exact ⟨_, rfl⟩
  | mono m => exact ⟨_, rfl⟩
  | poly p => exact absurd h (by simp [Scalar.isPoly])

omit [GoNum R] in
theorem Scalar.toVar_ok {a : Scalar R} (h : a.isVar = true) : ∃ v, a = .var v ∧ a.toVar = .ok v := by
  cases a with
  | var v => exact ⟨v, rfl, rfl⟩
  | k c => exact absurd h (by simp [Scalar.isVar])
  | mono m => exact absurd h (by simp [Scalar.isVar])
  | poly p => exact absurd h (by simp [Scalar.isVar])

omit [GoNum R] in
theorem Scalar.toK_ok {a : Scalar R} (h : a.isK = true) : ∃ c, a = .k c ∧ a.toK = .ok c := by
  cases a with
  | k c => exact ⟨c, rfl, rfl⟩
  | var v => exact absurd h (by simp [Scalar.isK])
  | mono m => exact absurd h (by simp [Scalar.isK])
  | poly p => exact absurd h (by simp [Scalar.isK])

omit [GoNum R] in
/-- The four cases in which the kind of the result is chosen. -/
theorem kind_cases (l : List (Scalar R)) :
    l.any Scalar.isPoly = true ∨
    (l.any Scalar.isPoly = false ∧
      (l.any Scalar.isMono || l.any Scalar.isK && l.any Scalar.isVar) = true) ∨
    (l.any Scalar.isPoly = false ∧
      (l.any Scalar.isMono || l.any Scalar.isK && l.any Scalar.isVar) = false ∧
      l.all Scalar.isVar = true) ∨
    (l.any Scalar.isPoly = false ∧
      (l.any Scalar.isMono || l.any Scalar.isK && l.any Scalar.isVar) = false ∧
      l.all Scalar.isVar = false ∧ l.any Scalar.isK = true ∧ l.all Scalar.isK = true) := by
  by_cases h1 : l.any Scalar.isPoly = true
  · exact Or.inl h1
  rw [Bool.not_eq_true] at h1
  by_cases h2 : (l.any Scalar.isMono || l.any Scalar.isK && l.any Scalar.isVar) = true
  · exact Or.inr (Or.inl ⟨h1, h2⟩)
  rw [Bool.not_eq_true] at h2
  by_cases h3 : l.all Scalar.isVar = true
  · exact Or.inr (Or.inr (Or.inl ⟨h1, h2, h3⟩))
  rw [Bool.not_eq_true] at h3
  have h2' := h2
  rw [Bool.or_eq_false_iff, Bool.and_eq_false_iff] at h2'
  rw [List.any_eq_false] at h1
  simp only [List.any_eq_false] at h2'
  rw [List.all_eq_false] at h3
  obtain ⟨x, hx, hxv⟩ := h3
  have kx : x.isK = true := by
    have a1 := h1 x hx
    have a2 := h2'.1 x hx
    cases x <;> simp_all [Scalar.isK, Scalar.isVar, Scalar.isMono, Scalar.isPoly]
  have hk : l.any Scalar.isK = true := List.any_eq_true.mpr ⟨x, hx, kx⟩
  refine Or.inr (Or.inr (Or.inr ⟨List.any_eq_false.mpr h1, h2, List.all_eq_false.mpr ⟨x, hx, hxv⟩, hk,
    ?_⟩))
  rw [List.all_eq_true]
  intro y hy
  have b1 := h1 y hy
  have b2 := h2'.1 y hy
  rcases h2'.2 with b3 | b3
  · exact absurd kx (b3 x hx)
  · have b4 := b3 y hy
    cases y <;> simp_all [Scalar.isK, Scalar.isVar, Scalar.isMono, Scalar.isPoly]

theorem concretizeVec_conv {l : List (Scalar R)} (h : LArr n Q l) (hn : 0 < n)
    (hS : ∀ i, i < n → Conv (Q i)) : Go.Ok (concretizeVec l) (VArr n Q) := by
  have hne : l ≠ [] := by
    rintro rfl
    exact absurd h.1 (by simp; omega)
  have h' : LArr n (fun i a => Q i a ∧ a ∈ l) l :=
    ⟨h.1, fun i a hi => ⟨h.2 i a hi, List.mem_of_getElem? hi⟩⟩
  unfold concretizeVec
  simp only [if_neg hne]
  rcases kind_cases l with h1 | ⟨h1, h2⟩ | ⟨h1, h2, h3⟩ | ⟨h1, h2, h3, h4, h5⟩
  · simp only [h1, if_true]
    refine Go.ok_pure ?_
    unfold VArr Vec.entries
    simp only [List.map_map]
    exact h.map fun i a hi ha => (hS i hi).poly a ha
  · simp only [h1, h2, if_true, Bool.false_eq_true, if_false]
    refine Go.Ok.bind (LArr.mapM (Q' := fun i m => Q i (.mono m)) h' fun i a hi ha => ?_)
      fun ms hms => Go.ok_pure (LArr.map_iff.mpr hms)
    obtain ⟨m, hm⟩ := Scalar.toMono_ok (a := a) (by simpa using List.any_eq_false.mp h1 a ha.2)
    exact ⟨m, hm, (hS i hi).mono a m ha.1 hm⟩
  · simp only [h1, h2, h3, if_true, Bool.false_eq_true, if_false]
    refine Go.Ok.bind (LArr.mapM (Q' := fun i m => Q i (.var m)) h' fun i a hi ha => ?_)
      fun ms hms => Go.ok_pure (LArr.map_iff.mpr hms)
    obtain ⟨v, rfl, hv⟩ := Scalar.toVar_ok (a := a) (List.all_eq_true.mp h3 a ha.2)
    exact ⟨v, hv, ha.1⟩
  · simp only [h1, h2, Bool.false_eq_true, if_false]
    simp only [h3, h4, if_true, Bool.false_eq_true, if_false]
    refine Go.Ok.bind (LArr.mapM (Q' := fun i m => Q i (.k m)) h' fun i a hi ha => ?_)
      fun ms hms => Go.ok_pure (LArr.map_iff.mpr hms)
    obtain ⟨v, rfl, hv⟩ := Scalar.toK_ok (a := a) (List.all_eq_true.mp h5 a ha.2)
    exact ⟨v, hv, ha.1⟩

theorem concretizeVec_ok {l : List (Scalar R)} (h : LArr n Q l) (hn : 0 < n)
    (hS : ∀ i, i < n → Stable (Q i)) : Go.Ok (concretizeVec l) (VArr n Q) :=
  concretizeVec_conv h hn (fun i hi => (hS i hi).toConv)

theorem concretizeMat_conv {g : List (List (Scalar R))} (h : Arr r c QQ g) (hr : 0 < r)
    (hS : ∀ i j, i < r → j < c → Conv (QQ i j)) : Go.Ok (concretizeMat g) (MArr r c QQ) := by
  have h' : Arr r c (fun i j a => QQ i j a ∧ a ∈ g.flatten) g := by
    refine ⟨h.1, fun i row hi => ⟨(h.2 i row hi).1, fun j a hj => ⟨(h.2 i row hi).2 j a hj, ?_⟩⟩⟩
    exact List.mem_flatten.mpr ⟨row, List.mem_of_getElem? hi, List.mem_of_getElem? hj⟩
  unfold concretizeMat
  have hrect : (match g with
      | [] => throw Err.empty
      | r0 :: _ => g.forM (fun row => if row.length ≠ r0.length then throw .other else pure ()) : Go Unit)
      = .ok () := by
    cases g with
    | nil => exact absurd h.1 (by simp; omega)
    | cons r0 rest =>
      refine Go.forM_ok _ _ fun row hrow => ?_
      rw [h.rowLen hrow, h.rowLen (List.mem_cons_self ..)]
      simp [Go.pure_eq]
  have key : Go.Ok (do
      let l := g.flatten
      if l.any Scalar.isPoly then return .p (g.map (·.map Scalar.toPoly))
      else if l.any Scalar.isMono || (l.any Scalar.isVar && l.any Scalar.isK) then
        return .m (← g.mapM (·.mapM Scalar.toMono))
      else if l.all Scalar.isVar then return .v (← g.mapM (·.mapM Scalar.toVar))
      else if l.any Scalar.isK then return .k (← g.mapM (·.mapM Scalar.toK))
      else throw .other : Go (Mat R)) (MArr r c QQ) := by
    simp only []
    rw [Bool.and_comm (g.flatten.any Scalar.isVar)]
    rcases kind_cases g.flatten with h1 | ⟨h1, h2⟩ | ⟨h1, h2, h3⟩ | ⟨h1, h2, h3, h4, h5⟩
    · simp only [h1, if_true]
      refine Go.ok_pure ?_
      unfold MArr Mat.entries
      simp only [List.map_map]
      have : ((fun x => List.map Scalar.poly x) ∘ fun x => List.map Scalar.toPoly x) =
          fun (x : List (Scalar R)) => x.map (fun a => Scalar.poly a.toPoly) := by
        funext x
        simp
      rw [this]
      exact h.map fun i j a hi hj ha => (hS i j hi hj).poly a ha
    · simp only [h1, h2, if_true, Bool.false_eq_true, if_false]
      refine Go.Ok.bind (Arr.mapM (Q' := fun i j m => QQ i j (.mono m)) h' fun i j a hi hj ha => ?_)
        fun ms hms => Go.ok_pure (Arr.map_iff.mpr hms)
      obtain ⟨m, hm⟩ := Scalar.toMono_ok (a := a) (by simpa using List.any_eq_false.mp h1 a ha.2)
      exact ⟨m, hm, (hS i j hi hj).mono a m ha.1 hm⟩
    · simp only [h1, h2, h3, if_true, Bool.false_eq_true, if_false]
      refine Go.Ok.bind (Arr.mapM (Q' := fun i j m => QQ i j (.var m)) h' fun i j a hi hj ha => ?_)
        fun ms hms => Go.ok_pure (Arr.map_iff.mpr hms)
      obtain ⟨v, rfl, hv⟩ := Scalar.toVar_ok (a := a) (List.all_eq_true.mp h3 a ha.2)
      exact ⟨v, hv, ha.1⟩
    · simp only [h1, h2, Bool.false_eq_true, if_false]
      simp only [h3, h4, if_true, Bool.false_eq_true, if_false]
      refine Go.Ok.bind (Arr.mapM (Q' := fun i j m => QQ i j (.k m)) h' fun i j a hi hj ha => ?_)
        fun ms hms => Go.ok_pure (Arr.map_iff.mpr hms)
      obtain ⟨v, rfl, hv⟩ := Scalar.toK_ok (a := a) (List.all_eq_true.mp h5 a ha.2)
      exact ⟨v, hv, ha.1⟩
  cases g with
  | nil => exact absurd h.1 (by simp; omega)
  | cons r0 rest =>
    simp only [] at hrect ⊢
    rw [hrect, Go.ok_bind]
    exact key

theorem concretizeMat_ok {g : List (List (Scalar R))} (h : Arr r c QQ g) (hr : 0 < r)
    (hS : ∀ i j, i < r → j < c → Stable (QQ i j)) : Go.Ok (concretizeMat g) (MArr r c QQ) :=
  concretizeMat_conv h hr (fun i j hi hj => (hS i j hi hj).toConv)

theorem concretizeV_conv {l : List (Scalar R)} (h : LArr n Q l) (hn : 0 < n)
    (hS : ∀ i, i < n → Conv (Q i))
    (hk : ∀ i a, i < n → Q i a → a.check = .ok ()) :
    Go.Ok (concretizeV l) (fun e => EArr n 1 (fun i _ => Q i) e ∧
      (n = 1 → ∃ a, e = .s a) ∧ (n ≠ 1 → ∃ a, e = .v a)) := by
  unfold concretizeV
  refine Go.Ok.bind (concretizeVec_conv h hn hS) fun v hv => ?_
  have hv' : VArr n (fun i x => i < n ∧ Q i x) v := LArr.mono hv fun i a hi ha => ⟨hi, ha⟩
  have hck : ∀ i x, (i < n ∧ Q i x) → x.check = .ok () := fun i x hx => hk i x hx.1 hx.2
  rw [hv'.dims hn hck, Go.ok_bind]
  simp only []
  split
  · rename_i h1
    subst h1
    refine Go.Ok.bind (hv'.at hck (i := 0) hn) fun x hx => ?_
    exact Go.ok_pure ⟨earr_s hx.2, fun _ => ⟨_, rfl⟩, fun h => absurd rfl h⟩
  · rename_i h1
    exact Go.ok_pure ⟨earr_v_iff.mpr hv, fun h => absurd h h1, fun _ => ⟨_, rfl⟩⟩

theorem concretizeV_ok {l : List (Scalar R)} (h : LArr n Q l) (hn : 0 < n)
    (hS : ∀ i, i < n → Stable (Q i)) :
    Go.Ok (concretizeV l) (fun e => EArr n 1 (fun i _ => Q i) e ∧
      (n = 1 → ∃ a, e = .s a) ∧ (n ≠ 1 → ∃ a, e = .v a)) :=
  concretizeV_conv h hn (fun i hi => (hS i hi).toConv) fun i a hi => (hS i hi).check a

theorem concretizeM_conv {g : List (List (Scalar R))} (h : Arr r c QQ g) (hr : 0 < r) (hc : 0 < c)
    (hS : ∀ i j, i < r → j < c → Conv (QQ i j))
    (hk : ∀ i j a, i < r → j < c → QQ i j a → a.check = .ok ()) :
    Go.Ok (concretizeM g) (fun e => EArr r c QQ e ∧ (r = 1 ∧ c = 1 → ∃ a, e = .s a) ∧
      (r ≠ 1 ∧ c = 1 → ∃ a, e = .v a) ∧ (c ≠ 1 → ∃ a, e = .m a)) := by
  unfold concretizeM
  refine Go.Ok.bind (concretizeMat_conv h hr hS) fun m hm => ?_
  have hm' : MArr r c (fun i j x => i < r ∧ j < c ∧ QQ i j x) m :=
    Arr.mono hm fun i j a hi hj ha => ⟨hi, hj, ha⟩
  have hck : ∀ i j x, (i < r ∧ j < c ∧ QQ i j x) → x.check = .ok () :=
    fun i j x hx => hk i j x hx.1 hx.2.1 hx.2.2
  rw [hm'.dims hr hck, Go.ok_bind]
  simp only []
  split
  · rename_i h1
    obtain ⟨rfl, rfl⟩ := h1
    refine Go.Ok.bind (hm'.at hck (i := 0) (j := 0) hr hc) fun x hx => ?_
    exact Go.ok_pure ⟨earr_s hx.2.2, fun _ => ⟨_, rfl⟩, fun h => absurd rfl h.1, fun h => absurd rfl h⟩
  · rename_i h1
    split
    · rename_i h2
      subst h2
      refine Go.Ok.bind (LArr.mapM (Q' := fun i x => QQ i 0 x) (LArr.range r) fun i a hi ha => ?_)
        fun l hl => ?_
      · subst ha
        exact (hm'.at hck hi hc).mono fun _ hx => hx.2.2
      refine Go.Ok.bind (concretizeVec_conv hl hr fun i hi => hS i 0 hi hc) fun v hv => ?_
      exact Go.ok_pure ⟨earr_v_iff.mpr hv, fun h => absurd h h1, fun _ => ⟨_, rfl⟩,
        fun h => absurd rfl h⟩
    · rename_i h2
      exact Go.ok_pure ⟨hm, fun h => absurd h.2 h2, fun h => absurd h.2 h2, fun _ => ⟨_, rfl⟩⟩

theorem concretizeM_ok {g : List (List (Scalar R))} (h : Arr r c QQ g) (hr : 0 < r) (hc : 0 < c)
    (hS : ∀ i j, i < r → j < c → Stable (QQ i j)) :
    Go.Ok (concretizeM g) (fun e => EArr r c QQ e ∧ (r = 1 ∧ c = 1 → ∃ a, e = .s a) ∧
      (r ≠ 1 ∧ c = 1 → ∃ a, e = .v a) ∧ (c ≠ 1 → ∃ a, e = .m a)) :=
  concretizeM_conv h hr hc (fun i j hi hj => (hS i j hi hj).toConv)
    fun i j a hi hj => (hS i j hi hj).check a

/-! ## AsSimplifiedExpression -/

theorem VArr.asSimplified {a : Vec R} (h : VArr n Q a) (hn : 0 < n)
    (hS : ∀ i, i < n → Stable (Q i)) : Go.Ok a.asSimplified (VArr n Q) := by
  have hv' : VArr n (fun i x => i < n ∧ Q i x) a := LArr.mono h fun i a hi ha => ⟨hi, ha⟩
  have hck := hv'.check hn fun i x hx => (hS i hx.1).check x hx.2
  cases a with
  | k l => exact Go.ok_pure h
  | v l => exact Go.ok_pure h
  | m l =>
    unfold Vec.asSimplified
    simp only [hck, Go.ok_bind]
    refine Go.Ok.bind (LArr.mapM (LArr.map_iff.mp h) fun i a hi ha => ?_) fun l hl =>
      concretizeVec_ok hl hn hS
    exact (hS i hi).simp _ ha
  | p l =>
    unfold Vec.asSimplified
    simp only [hck, Go.ok_bind]
    refine Go.Ok.bind (LArr.mapM (LArr.map_iff.mp h) fun i a hi ha => ?_) fun l hl =>
      concretizeVec_ok hl hn hS
    exact (hS i hi).simp _ ha

theorem MArr.asSimplified {a : Mat R} (h : MArr r c QQ a) (hr : 0 < r)
    (hS : ∀ i j, i < r → j < c → Stable (QQ i j)) : Go.Ok a.asSimplified (MArr r c QQ) := by
  have hv' : MArr r c (fun i j x => i < r ∧ j < c ∧ QQ i j x) a :=
    Arr.mono h fun i j a hi hj ha => ⟨hi, hj, ha⟩
  have hck := hv'.check hr fun i j x hx => (hS i j hx.1 hx.2.1).check x hx.2.2
  cases a with
  | k l => exact Go.ok_pure h
  | v l => exact Go.ok_pure h
  | m l =>
    unfold Mat.asSimplified
    simp only [hck, Go.ok_bind]
    refine Go.Ok.bind (Arr.mapM (Arr.map_iff.mp h) fun i j a hi hj ha => ?_) fun l hl =>
      concretizeMat_ok hl hr hS
    exact (hS i j hi hj).simp _ ha
  | p l =>
    unfold Mat.asSimplified
    simp only [hck, Go.ok_bind]
    refine Go.Ok.bind (Arr.mapM (Arr.map_iff.mp h) fun i j a hi hj ha => ?_) fun l hl =>
      concretizeMat_ok hl hr hS
    exact (hS i j hi hj).simp _ ha

/-- Simplification keeps entries and does not change between scalar, vector and matrix. -/
theorem EArr.asSimplified {e : Expr R} (h : EArr r c QQ e) (hr : 0 < r)
    (hS : ∀ i j, i < r → j < c → Stable (QQ i j)) :
    Go.Ok e.asSimplified (fun e' => EArr r c QQ e' ∧ ((∃ a, e = .s a) → ∃ a, e' = .s a) ∧
      ((∃ a, e = .v a) → ∃ a, e' = .v a) ∧ ((∃ a, e = .m a) → ∃ a, e' = .m a)) := by
  cases e with
  | s a =>
    have h1 : 1 = r := h.1
    have h2 := Arr.rowLen h (row := [a]) (by simp [Expr.grid])
    simp at h2
    subst h1 h2
    refine Go.Ok.bind ((hS 0 0 (by decide) (by decide)).simp a (earr_s_iff.mp h)) fun x hx => ?_
    exact Go.ok_pure ⟨earr_s hx, fun _ => ⟨_, rfl⟩, by simp, by simp⟩
  | v a =>
    obtain rfl := earr_v_cols hr h
    refine Go.Ok.bind ((earr_v_iff.mp h).asSimplified hr fun i hi => hS i 0 hi (by decide)) fun x hx => ?_
    exact Go.ok_pure ⟨earr_v_iff.mpr hx, by simp, fun _ => ⟨_, rfl⟩, by simp⟩
  | m a =>
    refine Go.Ok.bind (MArr.asSimplified h hr hS) fun x hx => ?_
    exact Go.ok_pure ⟨hx, by simp, by simp, fun _ => ⟨_, rfl⟩⟩

end

/-! ## The two families of predicates used -/

section
variable [GoNum R] {P : Var R → Prop} {D : Set (ℕ →₀ ℕ)}

theorem good_toPoly {a : Scalar R} (h : Good P D a) : Good P D (.poly a.toPoly) := by
  cases a with
  | k c => exact ⟨by simp [Scalar.toPoly, kToPoly], fun m hm => by
      simp only [Scalar.toPoly, kToPoly, List.mem_singleton] at hm
      subst hm
      exact goodM_const c⟩
  | var v => exact ⟨by simp [Scalar.toPoly, Var.toPoly], fun m hm => by
      simp only [Scalar.toPoly, Var.toPoly, List.mem_singleton] at hm
      subst hm
      exact goodM_var h.1 h.2.1 h.2.2 _⟩
  | mono m => exact Mono.toPoly_good h
  | poly p => exact h

theorem good_toMono {a : Scalar R} (h : Good P D a) {m : Mono R} (hm : a.toMono = .ok m) :
    Good P D (.mono m) := by
  cases a with
  | k c => cases hm; exact goodM_const c
  | var v => cases hm; exact goodM_var h.1 h.2.1 h.2.2 _
  | mono m => cases hm; exact h
  | poly p => cases hm

theorem stable_good : Stable (Good (R := R) P D) where
  check _ h := h.check
  poly _ h := good_toPoly h
  mono _ _ h hm := good_toMono h hm
  simp _ h := Scalar.asSimplified_good h

end

section
variable {R : Type} [Field R] [LinearOrder R] {P : Var R → Prop} {D : Set (ℕ →₀ ℕ)}

theorem toPoly_den (a : Scalar R) : (Scalar.poly a.toPoly).den = a.den := by
  cases a with
  | k c => simp [Scalar.toPoly, kToPoly, Scalar.den, Poly.den, Mono.den_of_vars_nil, kToMono]
  | var v =>
    have := den_one_var (R := R) 1 v
    simp only [Scalar.toPoly, Var.toPoly, Scalar.den, Poly.den, Var.toMono, List.map_cons,
      List.map_nil, List.sum_cons, List.sum_nil, add_zero]
    exact this.trans (by simp)
  | mono m => simp [Scalar.toPoly, Mono.toPoly, Scalar.den, Poly.den]
  | poly p => rfl

theorem toMono_den {a : Scalar R} {m : Mono R} (hm : a.toMono = .ok m) :
    (Scalar.mono m).den = a.den := by
  cases a with
  | k c => cases hm; simp [Scalar.den, Mono.den_of_vars_nil, kToMono]
  | var v =>
    cases hm
    have := den_one_var (R := R) 1 v
    exact this.trans (by simp [Scalar.den])
  | mono m => cases hm; rfl
  | poly p => cases hm

theorem stable_goodDen (hD : RearrFree D) (f : MvPolynomial ℕ R) : Stable (GoodDen P D f) where
  check _ h := h.1.check
  poly _ h := ⟨good_toPoly h.1, by rw [toPoly_den]; exact h.2⟩
  mono _ _ h hm := ⟨good_toMono h.1 hm, by rw [toMono_den hm]; exact h.2⟩
  simp _ h := Scalar.asSimplified_den hD h

end

end Verif
