import Verif.Lemmas.FormsProg
import Verif.Lemmas.Sound

/-!
# The terms of one entry, computed

`Entry` bounds the ways in which the terms of one entry of a vector or a matrix can be written, and says whether no two
terms are confused on the way to it.  The operations are computed without coefficients, entry by entry; the lemmas say
that they bound what the operations on arrays return.
-/

set_option linter.unusedSectionVars false

namespace Verif

open MvPolynomial

/-- Any kind of scalar with these terms. -/
def Shape.full (ws : List Writing) : Shape := ⟨ws, true, true⟩

/-- Products in either order. -/
def Shape.both (A B : List Writing) : List Writing := ((Shape.full A).mul (Shape.full B)).ws

theorem Shape.both_prod (A B : List Writing) : ProdW {w | w ∈ A} {w | w ∈ B} {w | w ∈ both A B} :=
  ⟨mul_prod (full A) (full B), mul_swap (a := full A) (b := full B) (by unfold swaps full; simp)⟩

/-- The terms an entry can have, and whether no two of them were confused. -/
structure Entry where
  ws : List Writing
  ok : Bool

namespace Entry

def make (ws : List Writing) (ok : Bool) : Entry := ⟨ws, ok && (Shape.full ws).ok⟩

def const : Entry := ⟨[], true⟩

def var (i : ℕ) : Entry := ⟨[([i], [1])], true⟩

def add (a b : Entry) : Entry := make (a.ws ++ b.ws).dedup (a.ok && b.ok)

def mul (a b : Entry) : Entry := make (Shape.both a.ws b.ws) (a.ok && b.ok)

/-- Entry `(i, j)` of a product, the sum of `n` products. -/
def dot (A B : ℕ → ℕ → Entry) (i j : ℕ) : ℕ → Entry
  | 0 => const
  | n + 1 => (dot A B i j n).add ((A i n).mul (B n j))

/-- The entries of a power of an `r` by `r` matrix. -/
def pow (r : ℕ) (A : ℕ → ℕ → Entry) : ℕ → ℕ → ℕ → Entry
  | 0 => fun _ _ => const
  | n + 1 => fun i j => dot (pow r A n) A i j r

def deriv (a : Entry) (i : ℕ) : Entry := make ((Shape.full a.ws).deriv i).ws a.ok

def subst (a : Entry) (i : ℕ) (s : Entry) : Entry :=
  let T : ℕ → Shape := fun l => if l = i then Shape.full s.ws else .var l
  make ((Shape.full a.ws).substAll T (fun l => decide (i ∈ l)) true).ws
    (a.ok && s.ok && (Shape.full a.ws).substAllOk T (fun l => decide (i ∈ l)) true)

end Entry

section
variable {R : Type} [Field R] [LinearOrder R]

/-- A set of ways of writing terms, a meaning, and whether the meaning is certain. -/
@[ext] structure Tagged (R : Type) [Field R] where
  W : Set Writing
  f : MvPolynomial ℕ R
  ok : Prop

/-- The products of terms (or constants). -/
def prodSet (W1 W2 : Set Writing) : Set Writing :=
  {p | ∃ w ∈ insert ([], []) W1, ∃ w' ∈ insert ([], []) W2, p = Writing.mul w w' ∧ p.1 ≠ []}

theorem prodSet_to (W1 W2 : Set Writing) : ProdW W1 W2 (prodSet W1 W2 ∪ prodSet W2 W1) :=
  ⟨fun w hw w' hw' h => .inl ⟨w, hw, w', hw', rfl, h⟩, fun w hw w' hw' h => .inr ⟨w, hw, w', hw', rfl, h⟩⟩

noncomputable instance : AddCommMagma (Tagged R) where
  add x y := ⟨x.W ∪ y.W, x.f + y.f, (x.ok ∧ y.ok) ∧ Consistent (x.W ∪ y.W)⟩
  add_comm x y := by
    show Tagged.mk _ _ _ = Tagged.mk _ _ _
    rw [Set.union_comm, add_comm, and_comm (a := x.ok)]

noncomputable instance : CommMagma (Tagged R) where
  mul x y := ⟨prodSet x.W y.W ∪ prodSet y.W x.W, x.f * y.f,
    (x.ok ∧ y.ok) ∧ Consistent (prodSet x.W y.W ∪ prodSet y.W x.W)⟩
  mul_comm x y := by
    show Tagged.mk _ _ _ = Tagged.mk _ _ _
    rw [Set.union_comm, mul_comm x.f, and_comm (a := x.ok)]

noncomputable instance : Zero (Tagged R) := ⟨⟨∅, 0, True⟩⟩

/-- Well formed, over the variables `U`, and of the meaning if that is certain. -/
def Tagged.Holds (U : Var R → Prop) (x : Tagged R) (s : Scalar R) : Prop :=
  Good U Set.univ s ∧ (x.ok → Consistent x.W ∧ DenW x.W x.f s)

variable {U : Var R → Prop}

private theorem both_ok {α : Type} {x : Go α} {P Q : α → Prop} {c : Prop} (h : Go.Ok x P) (h' : c → Go.Ok x Q) :
    Go.Ok x fun r => P r ∧ (c → Q r) := by
  obtain ⟨r, h1, h2⟩ := h
  refine ⟨r, h1, h2, fun hc => ?_⟩
  obtain ⟨r', h3, h4⟩ := h' hc
  rw [h1, Except.ok.injEq] at h3
  exact h3 ▸ h4

theorem stable_holds (x : Tagged R) : Stable (x.Holds U) where
  check _ h := h.1.check
  poly _ h := ⟨good_toPoly h.1, fun hc => ⟨(h.2 hc).1, semW_toPoly (h.2 hc).2⟩⟩
  mono _ _ h hm := ⟨good_toMono h.1 hm, fun hc => ⟨(h.2 hc).1, semW_toMono (h.2 hc).2 hm⟩⟩
  simp _ h := both_ok (Scalar.asSimplified_good h.1) fun hc =>
    (Scalar.asSimplified_sem (respects_den (h.2 hc).1) (h.2 hc).2).mono fun _ hr => ⟨(h.2 hc).1, hr⟩

theorem addSem_holds : AddSem (Tagged.Holds (R := R) U) where
  stable := stable_holds
  add {x y s t} hx hy := both_ok (Scalar.plus_good hx.1 hy.1) fun hc =>
    (Scalar.plus_sem (respects_den hc.2) (SemW.weaken (hx.2 hc.1.1).2 Set.subset_union_left)
      (SemW.weaken (hy.2 hc.1.2).2 Set.subset_union_right)).mono fun _ hr => ⟨hc.2, hr⟩
  scale {x d} h := ⟨trivial, fun hc => ⟨(h.2 hc).1, (addSem_written (respects_den (h.2 hc).1)).scale (h.2 hc).2⟩⟩
  num {x y c d} hx hy := ⟨trivial, fun hc => ⟨hc.2, (addSem_written (respects_den hc.2)).num
    (SemW.weaken (hx.2 hc.1.1).2 Set.subset_union_left) (SemW.weaken (hy.2 hc.1.2).2 Set.subset_union_right)⟩⟩
  cons {x y m p} hm hp := ⟨simplify_cons hm.1 hp.1, ⟨by simp, goodL_cons hm.1 hp.1⟩, fun hc => ⟨hc.2,
    ((addSem_written (respects_den hc.2)).cons (SemW.weaken (hm.2 hc.1.1).2 Set.subset_union_left)
      (SemW.weaken (hp.2 hc.1.2).2 Set.subset_union_right)).2⟩⟩

theorem mulSem_holds : MulSem (Tagged.Holds (R := R) U) (Tagged.Holds U) (Tagged.Holds U) where
  left {x s} h := ⟨h.1.check, (stable_holds x).poly _ h⟩
  right h := h.1.check
  sum := addSem_holds
  zero := ⟨trivial, fun _ => ⟨fun w hw => hw.elim, denW_zero⟩⟩
  zadd {x s} h := ⟨h.1, fun hc => ⟨hc.2, by
    have := SemW.weaken (h.2 hc.1.2).2 (Set.subset_union_right (s := ∅))
    show DenW (∅ ∪ x.W) (0 + x.f) s
    rwa [zero_add]⟩⟩
  mul {x y s t} hx hy := both_ok (Scalar.mul_good prodIn_univ hx.1 hy.1) fun hc =>
    ((mulSem_written (prodSet_to _ _) hc.2).mul (hx.2 hc.1.1).2 (hy.2 hc.1.2).2).mono fun _ hr => ⟨hc.2, hr⟩
  mul' {x y s t} hx hy := both_ok (Scalar.mul_good prodIn_univ hy.1 hx.1) fun hc =>
    ((mulSem_written (prodSet_to _ _) hc.2).mul' (hx.2 hc.1.1).2 (hy.2 hc.1.2).2).mono fun _ hr => ⟨hc.2, hr⟩
  num {x y c d} hx hy := ⟨trivial, fun hc => ⟨hc.2, (mulSem_written (prodSet_to _ _) hc.2).num
    (hx.2 hc.1.1).2 (hy.2 hc.1.2).2⟩⟩
  mono {x y m d} hm hd := ⟨Mono.mulK_good hm.1 d, fun hc => ⟨hc.2, (mulSem_written (prodSet_to _ _) hc.2).mono
    (hm.2 hc.1.1).2 (hd.2 hc.1.2).2⟩⟩

/-! ## Computed bounds -/

/-- `y` allows what `x` allows. -/
structure Tagged.Leq (x y : Tagged R) : Prop where
  sub : x.W ⊆ y.W
  eq : x.f = y.f
  ok : y.ok → x.ok

theorem Tagged.Holds.leq {x y : Tagged R} {s : Scalar R} (h : x.Holds U s) (hxy : x.Leq y) (hy : y.ok → Consistent y.W) :
    y.Holds U s := ⟨h.1, fun hc => ⟨hy hc, by
  rw [← hxy.eq]
  exact SemW.weaken (h.2 (hxy.ok hc)).2 hxy.sub⟩⟩

theorem Consistent.subset {W W' : Set Writing} (h : Consistent W) (hs : W' ⊆ W) : Consistent W' :=
  fun w hw w' hw' => h w (hs hw) w' (hs hw')

namespace Entry
variable {a b : Entry} {f g : MvPolynomial ℕ R} {x y : Tagged R}

/-- With a meaning. -/
def tagged (a : Entry) (f : MvPolynomial ℕ R) : Tagged R := ⟨{w | w ∈ a.ws}, f, a.ok = true⟩

/-- The check was made for this entry. -/
def Sound (a : Entry) : Prop := a.ok = true → Consistent {w | w ∈ a.ws}

theorem make_sound (ws : List Writing) (ok : Bool) : (make ws ok).Sound := fun h =>
  Shape.ok_consistent (a := Shape.full ws) (Bool.and_eq_true _ _ ▸ h).2

theorem make_ok {ws : List Writing} {ok : Bool} (h : (make ws ok).ok = true) : ok = true :=
  (Bool.and_eq_true _ _ ▸ h : _ ∧ _).1

theorem const_sound : const.Sound := fun _ w hw => by cases hw

theorem var_sound (i : ℕ) : (var i).Sound := fun _ w hw w' hw' _ => by
  rw [List.mem_singleton.mp hw, List.mem_singleton.mp hw']

theorem leq_refl : (a.tagged f).Leq (a.tagged f) := ⟨subset_rfl, rfl, id⟩

theorem leq_add (hx : x.Leq (a.tagged f)) (hy : y.Leq (b.tagged g)) : (x + y).Leq ((a.add b).tagged (f + g)) := by
  have hs : x.W ∪ y.W ⊆ {w | w ∈ (a.add b).ws} := by
    rintro w (hw | hw)
    · exact List.mem_dedup.mpr (List.mem_append_left _ (hx.sub hw))
    · exact List.mem_dedup.mpr (List.mem_append_right _ (hy.sub hw))
  refine ⟨hs, congrArg₂ (· + ·) hx.eq hy.eq, fun h => ?_⟩
  have hc := make_sound _ _ h
  have h1 := make_ok h
  rw [Bool.and_eq_true] at h1
  exact ⟨⟨hx.ok h1.1, hy.ok h1.2⟩, hc.subset hs⟩

theorem leq_mul (hx : x.Leq (a.tagged f)) (hy : y.Leq (b.tagged g)) : (x * y).Leq ((a.mul b).tagged (f * g)) := by
  have hi : ∀ {A : Set Writing} {B : List Writing}, A ⊆ {w | w ∈ B} → insert ([], []) A ⊆ insert ([], []) {w | w ∈ B} :=
    fun h => Set.insert_subset_insert h
  have hs : prodSet x.W y.W ∪ prodSet y.W x.W ⊆ {w | w ∈ (a.mul b).ws} := by
    rintro _ (⟨w, hw, w', hw', rfl, hne⟩ | ⟨w, hw, w', hw', rfl, hne⟩)
    · exact (Shape.both_prod a.ws b.ws).1 w (hi hx.sub hw) w' (hi hy.sub hw') hne
    · exact (Shape.both_prod a.ws b.ws).2 w (hi hy.sub hw) w' (hi hx.sub hw') hne
  refine ⟨hs, congrArg₂ (· * ·) hx.eq hy.eq, fun h => ?_⟩
  have hc := make_sound _ _ h
  have h1 := make_ok h
  rw [Bool.and_eq_true] at h1
  exact ⟨⟨hx.ok h1.1, hy.ok h1.2⟩, hc.subset hs⟩

theorem leq_dot {A B : ℕ → ℕ → Entry} {F G : ℕ → ℕ → MvPolynomial ℕ R} (i j n : ℕ) :
    (psumG (fun i j => (A i j).tagged (F i j)) (fun i j => (B i j).tagged (G i j)) i j n).Leq
      ((dot A B i j n).tagged (psumG F G i j n)) := by
  induction n with
  | zero => exact ⟨fun w hw => hw.elim, rfl, fun _ => trivial⟩
  | succ n ih => exact leq_add ih (leq_mul leq_refl leq_refl)

theorem dot_sound (A B : ℕ → ℕ → Entry) (i j n : ℕ) : (dot A B i j n).Sound := by
  cases n with
  | zero => exact const_sound
  | succ n => exact make_sound _ _

theorem pow_sound (r : ℕ) (A : ℕ → ℕ → Entry) (n i j : ℕ) : (pow r A n i j).Sound := by
  cases n with
  | zero => exact const_sound
  | succ n => exact dot_sound _ _ _ _ _

theorem holds_const (c : R) : (const.tagged (C c)).Holds U (.k c) := ⟨trivial, fun h => ⟨const_sound h, denW_k c⟩⟩

theorem holds_var {v : Var R} (hv : v.OK) (hu : U v) : ((var v.id).tagged (X v.id)).Holds U (.var v) :=
  ⟨⟨hv, hu, trivial⟩, fun h => ⟨var_sound _ h, (Shape.has_var hv).den⟩⟩

theorem holds_deriv {s : Scalar R} {v : Var R} (hv : v.OK) (hs : (a.tagged f).Holds U s)
    (hd : ∃ r, s.derivative v = .ok r ∧ Good U Set.univ r)
    (h : ∀ f, DenW (Shape.full a.ws).set f s → Go.Ok (s.derivative v)
      (DenW ((Shape.full a.ws).deriv v.id).set (pderiv v.id f))) :
    Go.Ok (s.derivative v) (((a.deriv v.id).tagged (pderiv v.id f)).Holds U) :=
  both_ok hd fun hc => (h f (hs.2 (make_ok hc)).2).mono fun _ hr => ⟨make_sound _ _ hc, hr⟩

theorem holds_subst {s t : Scalar R} {v : Var R} (hs : (a.tagged f).Holds U s) (ht : (b.tagged g).Holds U t)
    (hd : ∃ r, s.substitute v t = .ok r ∧ Good U Set.univ r)
    (h : (Shape.full a.ws).substAllOk (fun l => if l = v.id then Shape.full b.ws else .var l)
        (fun l => decide (v.id ∈ l)) true = true → DenW (Shape.full a.ws).set f s → DenW (Shape.full b.ws).set g t →
      Go.Ok (s.substitute v t) (DenW ((Shape.full a.ws).substAll (fun l => if l = v.id then Shape.full b.ws else .var l)
        (fun l => decide (v.id ∈ l)) true).set (bind₁ (fun i => if i = v.id then g else X i) f))) :
    Go.Ok (s.substitute v t) (((a.subst v.id b).tagged (bind₁ (fun i => if i = v.id then g else X i) f)).Holds U) :=
  both_ok hd fun hc => by
    have h1 := make_ok hc
    rw [Bool.and_eq_true, Bool.and_eq_true] at h1
    exact (h h1.2 (hs.2 h1.1.1).2 (ht.2 h1.1.2).2).mono fun _ hr => ⟨make_sound _ _ hc, hr⟩

end Entry

end

end Verif
