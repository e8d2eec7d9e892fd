import Verif.Model.HeapSteps
import Verif.Lemmas.HeapArithRef

/-!
# Goroutines that only allocate: refinement of functions on values, with others at work

`View`: the slices a goroutine knows, with what it takes them to contain.  `KRep L K a x`: all slices of `a`
are known, and `a` stands for `x`.  `CRef M p K y`: whatever the others do to slices this goroutine does not
know, the goroutine `p` has the outcome `y` of a function on values; it writes only to slices of its own
(`W`), made since.
-/

set_option linter.unusedSectionVars false

namespace Verif

open GoNum

variable {R : Type} {α β γ A B C : Type}

/-- Known slices. -/
structure View where
  base : ExpHeap
  known : List ℕ
  wf : ∀ a ∈ known, a < base.length

/-- The memory contains what the view says. -/
def View.Holds (K : View) (h : ExpHeap) : Prop := ∀ a ∈ K.known, h.getD a [] = K.base.getD a []

/-- The known slices exist. -/
def View.Fits (K : View) (h : ExpHeap) : Prop := ∀ a ∈ K.known, a < h.length

/-- The view after an allocation. -/
def View.add (K : View) (h : ExpHeap) (l : List Int) (hf : K.Fits h) : View :=
  ⟨h ++ [l], h.length :: K.known, fun a ha => by
    rw [List.length_append]
    rcases List.mem_cons.mp ha with rfl | ha
    · simp
    · exact (hf a ha).trans_le (by simp)⟩

/-- The view after a write. -/
def View.write (K : View) (a : ℕ) (f : List Int → List Int) : View :=
  ⟨K.base.modify a f, K.known, fun x hx => by simpa using K.wf x hx⟩

/-- Nothing is forgotten and nothing has changed. -/
instance : LE View := ⟨fun K K' => ∀ a ∈ K.known, a ∈ K'.known ∧ K'.base.getD a [] = K.base.getD a []⟩

theorem View.le_rfl {K : View} : K ≤ K := fun _ ha => ⟨ha, rfl⟩
theorem View.le_trans {K K' K'' : View} (h1 : K ≤ K') (h2 : K' ≤ K'') : K ≤ K'' := fun a ha =>
  ⟨(h2 a (h1 a ha).1).1, ((h2 a (h1 a ha).1).2).trans (h1 a ha).2⟩

instance : Preorder View where
  le_refl _ := View.le_rfl
  le_trans _ _ _ := View.le_trans

/-- All slices are known. -/
def Loader.Known (L : Loader α A) (K : View) (a : α) : Prop := ∀ x ∈ L.addrs a, x ∈ K.known

/-- `a` stands for `x`. -/
structure KRep (L : Loader α A) (K : View) (a : α) (x : A) : Prop where
  known : L.Known K a
  load : L.load K.base a = x

theorem KRep.at {L : Loader α A} {K : View} {a : α} {x : A} (ha : KRep L K a x) {h : ExpHeap} (hh : K.Holds h) :
    L.load h a = x := (L.congr fun y hy => hh y (ha.known y hy)).trans ha.load

theorem KRep.mono {L : Loader α A} {K K' : View} {a : α} {x : A} (ha : KRep L K a x) (hp : K ≤ K') : KRep L K' a x :=
  ⟨fun y hy => (hp y (ha.known y hy)).1, (L.congr fun y hy => (hp y (ha.known y hy)).2).trans ha.load⟩

/-- The goroutine has the outcome `y`, whatever happens to slices it does not know. -/
def CRefW (M : Loader β B) : SM R β → View → List ℕ → Go B → Prop
  | .ret r, K, _, y => r.map (M.load K.base) = y ∧ ∀ b, r = .ok b → M.Known K b
  | .read k, K, W, y => ∀ h : Heap R, K.Holds h.exps → CRefW M (k h) K W y
  | .alloc l k, K, W, y => ∀ (h : Heap R) (_ : K.Holds h.exps) (hf : K.Fits h.exps),
      CRefW M (k h.exps.length) (K.add h.exps l hf) (h.exps.length :: W) y
  | .write a f k, K, W, y => a ∈ W ∧ CRefW M k (K.write a f) W y

/-- The same for a goroutine that owns nothing at the start. -/
def CRef (M : Loader β B) (x : SM R β) (K : View) (y : Go B) : Prop := CRefW M x K [] y

theorem CRefW.more {M : Loader β B} {x : SM R β} : ∀ {K : View} {W W' : List ℕ} {y : Go B}, CRefW M x K W y →
    W ⊆ W' → CRefW M x K W' y := by
  induction x with
  | ret r => exact fun h _ => h
  | read k ih => exact fun h hs g hg => ih g (h g hg) hs
  | alloc l k ih => exact fun h hs g hg hf => ih _ (h g hg hf) (List.cons_subset_cons _ hs)
  | write a f k ih => exact fun h hs => ⟨hs h.1, ih h.2 hs⟩

theorem CRef.pure {M : Loader β B} {b : β} {K : View} {y : B} (hb : KRep M K b y) :
    CRef (R := R) M (pure b) K (.ok y) :=
  ⟨congrArg Except.ok hb.load, fun b' hb' => by cases hb'; exact hb.known⟩

theorem CRef.panic {M : Loader β B} {K : View} {e : Err} : CRef (R := R) M (SM.panic e) K (.error e) :=
  ⟨rfl, fun b hb => by cases hb⟩

theorem getD_modify_ne {l : ExpHeap} {a b : ℕ} (f : List Int → List Int) (h : a ≠ b) :
    (l.modify a f).getD b [] = l.getD b [] := by
  rw [List.getD_eq_getElem?_getD, List.getD_eq_getElem?_getD, List.getElem?_modify]
  simp only [h, if_false]
  cases l[b]? <;> rfl

theorem CRefW.bind {M : Loader β B} {N : Loader γ C} {f : β → SM R γ} {y : Go B} {g : B → Go C} {x : SM R β} :
    ∀ {K : View} {W : List ℕ}, CRefW M x K W y →
    (∀ b z (K' : View), (∀ a ∈ K.known, a ∉ W → a ∈ K'.known ∧ K'.base.getD a [] = K.base.getD a []) →
      y = .ok z → KRep M K' b z → CRef N (f b) K' (g z)) →
    CRefW N (x >>= f) K W (y >>= g) := by
  induction x with
  | ret r =>
    intro K W h1 h2
    cases r with
    | error e =>
      rw [← h1.1]
      exact ⟨rfl, fun b hb => by cases hb⟩
    | ok b =>
      have h3 := h2 b _ K (fun a ha _ => ⟨ha, rfl⟩) h1.1.symm ⟨h1.2 b rfl, rfl⟩
      rw [← h1.1]
      exact CRefW.more h3 (List.nil_subset _)
  | read k ih => exact fun h1 h2 h hh => ih h (h1 h hh) h2
  | alloc l k ih =>
    intro K W h1 h2 h hh hf
    refine ih _ (h1 h hh hf) fun b z K' hK => h2 b z K' fun a ha hW => ?_
    have hne : a ≠ h.exps.length := fun e => absurd (hf a ha) (by simp [e])
    obtain ⟨h3, h4⟩ := hK a (List.mem_cons_of_mem _ ha) (by simp [hne, hW])
    refine ⟨h3, h4.trans ?_⟩
    exact (getD_append_left (hf a ha)).trans (hh a ha)
  | write a g k ih =>
    intro K W h1 h2
    refine ⟨h1.1, ih h1.2 fun b z K' hK => h2 b z K' fun c hc hW => ?_⟩
    obtain ⟨h3, h4⟩ := hK c hc hW
    exact ⟨h3, h4.trans (getD_modify_ne g fun e => hW (e ▸ h1.1))⟩

theorem CRef.bind {M : Loader β B} {N : Loader γ C} {x : SM R β} {f : β → SM R γ} {y : Go B}
    {g : B → Go C} {K : View} (h1 : CRef M x K y)
    (h2 : ∀ b z (K' : View), K ≤ K' → y = .ok z → KRep M K' b z → CRef N (f b) K' (g z)) :
    CRef N (x >>= f) K (y >>= g) :=
  CRefW.bind h1 fun b z K' hK => h2 b z K' fun a ha => hK a ha (by simp)

/-- Reading a value, then going on. -/
theorem CRef.readBind {N : Loader γ C} {rd : Heap R → Go α} {f : α → SM R γ} {y : Go α}
    {g : α → Go C} {K : View} (hf : ∀ h : Heap R, K.Holds h.exps → rd h = y)
    (h2 : ∀ a, y = .ok a → CRef N (f a) K (g a)) : CRef N (SM.look rd >>= f) K (y >>= g) := by
  intro h hh
  show CRef N (SM.ret (rd h) >>= f) K _
  rw [hf h hh]
  cases y with
  | error e => exact ⟨rfl, fun b hb => by cases hb⟩
  | ok a => exact h2 a rfl

/-- Reading a value that cannot fail. -/
theorem CRef.readOk {N : Loader γ C} {rd : Heap R → Go α} {f : α → SM R γ} {a : α} {y : Go C} {K : View}
    (hf : ∀ h : Heap R, K.Holds h.exps → rd h = .ok a) (h2 : CRef N (f a) K y) : CRef N (SM.look rd >>= f) K y := by
  have h3 := CRef.readBind (N := N) (f := f) (g := fun _ => y) hf (fun b hb => by cases hb; exact h2)
  exact h3

/-- A first call that does not fail. -/
theorem CRef.bindOk {M : Loader β B} {N : Loader γ C} {x : SM R β} {f : β → SM R γ} {z : B}
    {y : Go C} {K : View} (h1 : CRef M x K (.ok z))
    (h2 : ∀ b (K' : View), K ≤ K' → KRep M K' b z → CRef N (f b) K' y) : CRef N (x >>= f) K y := by
  have h3 := CRef.bind (g := fun _ => y) h1 (fun b z' K' hp hz hb => by cases hz; exact h2 b K' hp hb)
  exact h3

theorem KRep.const {h : View} {a x : α} (ha : KRep (Loader.const α) h a x) : a = x := ha.load

theorem KRep.cons {L : Loader α A} {h : View} {a : α} {l : List α} {x : A} {xs : List A}
    (ha : KRep L h a x) (hl : KRep L.list h l xs) : KRep L.list h (a :: l) (x :: xs) :=
  ⟨fun y hy => by
    rcases List.mem_append.mp (show y ∈ L.addrs a ++ L.list.addrs l from hy) with hy | hy
    · exact ha.known y hy
    · exact hl.known y hy, by rw [L.list_cons, ha.load, hl.load]⟩

theorem KRep.nil {L : Loader α A} {h : View} : KRep L.list h [] [] := ⟨fun y hy => (by cases hy), rfl⟩

theorem KRep.cons_inv {L : Loader α A} {h : View} {a : α} {l : List α} {xs : List A}
    (hl : KRep L.list h (a :: l) xs) : ∃ y ys, xs = y :: ys ∧ KRep L h a y ∧ KRep L.list h l ys :=
  ⟨_, _, hl.load.symm, ⟨fun x hx => hl.known x (List.mem_append_left _ hx), rfl⟩,
    ⟨fun x hx => hl.known x (List.mem_append_right _ hx), rfl⟩⟩

theorem KRep.nil_inv {L : Loader α A} {h : View} {xs : List A} (hl : KRep L.list h [] xs) : xs = [] :=
  hl.load.symm

theorem KRep.append {L : Loader α A} {h : View} {l l' : List α} {xs xs' : List A}
    (hl : KRep L.list h l xs) (hl' : KRep L.list h l' xs') : KRep L.list h (l ++ l') (xs ++ xs') := by
  induction l generalizing xs with
  | nil => rw [hl.nil_inv]; exact hl'
  | cons a l ih =>
    obtain ⟨y, ys, rfl, h1, h2⟩ := hl.cons_inv
    exact h1.cons (ih h2)

theorem CRef.traverse {L : Loader α A} {M : Loader β B} {f : α → SM R β} {g : A → Go B}
    (l : List α) : ∀ {h : View} {xs : List A}, KRep L.list h l xs →
    (∀ a x, ∀ h' : View, h ≤ h' → KRep L h' a x → CRef M (f a) h' (g x)) →
    CRef M.list (SM.traverse f l) h (xs.mapM g) := by
  induction l with
  | nil =>
    intro h xs hl _
    rw [hl.nil_inv]
    exact CRef.pure KRep.nil
  | cons a l ih =>
    intro h xs hl hf
    obtain ⟨y, ys, rfl, h1, h2⟩ := hl.cons_inv
    rw [List.mapM_cons]
    refine CRef.bind (hf a y h le_rfl h1) fun b z h' hp _ hb => ?_
    refine CRef.bind (ih (h2.mono hp) fun a' x' h'' hp' => hf a' x' h'' (hp.trans hp')) fun bs zs h'' hp' _ hbs => ?_
    exact CRef.pure ((hb.mono hp').cons hbs)

theorem CRef.foldl {L : Loader α A} {M : Loader β B} {f : β → α → SM R β} {g : B → A → Go B}
    (l : List α) : ∀ {h : View} {xs : List A} {b : β} {y : B}, KRep L.list h l xs → KRep M h b y →
    (∀ a x b y, ∀ h' : View, h ≤ h' → KRep L h' a x → KRep M h' b y →
      CRef M (f b a) h' (g y x)) →
    CRef M (SM.foldl f l b) h (xs.foldlM g y) := by
  induction l with
  | nil =>
    intro h xs b y hl hb _
    rw [hl.nil_inv]
    exact CRef.pure hb
  | cons a l ih =>
    intro h xs b y hl hb hf
    obtain ⟨z, zs, rfl, h1, h2⟩ := hl.cons_inv
    rw [List.foldlM_cons]
    refine CRef.bind (hf a z b y h le_rfl h1 hb) fun b' y' h' hp _ hb' => ?_
    exact ih (h2.mono hp) hb' fun a' x' b'' y'' h'' hp' => hf a' x' b'' y'' h'' (hp.trans hp')

/-! ## Scalars in memory -/

theorem KRep.mono_iff {h : View} {m : HMono R} {s : Scalar R} :
    KRep LS h (.mono m) s ↔ ∃ n, s = .mono n ∧ KRep LM h m n :=
  ⟨fun hm => ⟨_, hm.load.symm, hm.known, rfl⟩, fun ⟨_, hs, hm⟩ => ⟨hm.known, hs ▸ congrArg Scalar.mono hm.load⟩⟩

theorem KRep.toMono {h : View} {m : HMono R} {n : Mono R} (hm : KRep LM h m n) :
    KRep LS h (.mono m) (.mono n) := KRep.mono_iff.mpr ⟨_, rfl, hm⟩

theorem KRep.poly_iff {h : View} {p : HPoly R} {s : Scalar R} :
    KRep LS h (.poly p) s ↔ ∃ ms, s = .poly ⟨ms⟩ ∧ KRep LM.list h p.monos ms := by
  constructor
  · intro hp
    refine ⟨_, hp.load.symm, ?_, rfl⟩
    intro x hx
    rw [LM_list_addrs] at hx
    exact hp.known x hx
  · rintro ⟨ms, rfl, hp⟩
    refine ⟨fun x hx => hp.known x ?_, congrArg (fun l => Scalar.poly ⟨l⟩) hp.load⟩
    rw [LM_list_addrs]
    exact hx

theorem KRep.toPoly {h : View} {l : List (HMono R)} {ms : List (Mono R)} (hm : KRep LM.list h l ms) :
    KRep LS h (.poly ⟨l⟩) (.poly ⟨ms⟩) := KRep.poly_iff.mpr ⟨_, rfl, hm⟩

theorem KRep.k {h : View} {c : R} : KRep LS h (.k c) (.k c) := ⟨fun y hy => (by cases hy), rfl⟩
theorem KRep.var {h : View} {v : Var R} : KRep LS h (.var v) (.var v) := ⟨fun y hy => (by cases hy), rfl⟩

theorem KRep.k_inv {h : View} {c : R} {s : Scalar R} (hs : KRep LS h (.k c) s) : s = .k c := hs.load.symm
theorem KRep.var_inv {h : View} {v : Var R} {s : Scalar R} (hs : KRep LS h (.var v) s) : s = .var v :=
  hs.load.symm

theorem KRep.coeff {h : View} {m : HMono R} {n : Mono R} (hm : KRep LM h m n) : m.coeff = n.coeff := by
  rw [← hm.load]; rfl
theorem KRep.vars {h : View} {m : HMono R} {n : Mono R} (hm : KRep LM h m n) : m.vars = n.vars := by
  rw [← hm.load]; rfl

theorem KRep.withCoeff {h : View} {m : HMono R} {n : Mono R} (hm : KRep LM h m n) (c : R) :
    KRep LM h { m with coeff := c } { n with coeff := c } :=
  ⟨hm.known, by rw [← hm.load]; rfl⟩

theorem KRep.modifyCoeff {h : View} {l : List (HMono R)} {ms : List (Mono R)} (hl : KRep LM.list h l ms)
    (i : ℕ) (f : R → R) : KRep LM.list h (l.modify i (fun m => { m with coeff := f m.coeff }))
      (ms.modify i (fun m => { m with coeff := f m.coeff })) := by
  induction l generalizing i ms with
  | nil => rw [hl.nil_inv]; simpa using KRep.nil
  | cons a l ih =>
    obtain ⟨y, ys, rfl, h1, h2⟩ := hl.cons_inv
    cases i with
    | zero =>
      rw [List.modify_zero_cons, List.modify_zero_cons, h1.coeff]
      exact (h1.withCoeff _).cons h2
    | succ i =>
      rw [List.modify_succ_cons, List.modify_succ_cons]
      exact h1.cons (ih h2 i)

theorem KRep.getElem? {L : Loader α A} {h : View} {l : List α} {xs : List A} (hl : KRep L.list h l xs) (i : ℕ) :
    (l[i]? = none ∧ xs[i]? = none) ∨ ∃ a x, l[i]? = some a ∧ xs[i]? = some x ∧ KRep L h a x := by
  induction l generalizing i xs with
  | nil => rw [hl.nil_inv]; exact Or.inl ⟨by simp, by simp⟩
  | cons a l ih =>
    obtain ⟨y, ys, rfl, h1, h2⟩ := hl.cons_inv
    cases i with
    | zero => exact Or.inr ⟨a, y, rfl, rfl, h1⟩
    | succ i => simpa using ih h2 i

end Verif
