import Verif.Model.HeapArray
import Verif.Lemmas.HeapArithRef

/-!
# Vector and matrix arithmetic on memory refines vector and matrix arithmetic on values
-/

set_option linter.unusedSectionVars false

namespace Verif

open GoNum

variable {R : Type} [GoNum R] {lo : ℕ}

/-! ## Loaders -/

def LV : Loader (AVec R) (Vec R) where
  addrs
    | .k _ => []
    | .v _ => []
    | .m l => LM.list.addrs l
    | .p l => LP.list.addrs l
  load := AVec.load
  congr {h h' a} hx := by
    cases a with
    | k l => rfl
    | v l => rfl
    | m l => exact congrArg Vec.m (LM.list.congr hx)
    | p l => exact congrArg Vec.p (LP.list.congr hx)

def LMt : Loader (AMat R) (Mat R) where
  addrs
    | .k _ => []
    | .v _ => []
    | .m l => LM.list.list.addrs l
    | .p l => LP.list.list.addrs l
  load := AMat.load
  congr {h h' a} hx := by
    cases a with
    | k l => rfl
    | v l => rfl
    | m l => exact congrArg Mat.m (LM.list.list.congr hx)
    | p l => exact congrArg Mat.p (LP.list.list.congr hx)

def LE : Loader (AExpr R) (Expr R) where
  addrs
    | .s e => LS.addrs e
    | .v a => LV.addrs a
    | .m a => LMt.addrs a
  load := AExpr.load
  congr {h h' a} hx := by
    cases a with
    | s e => exact congrArg Expr.s (LS.congr hx)
    | v a => exact congrArg Expr.v (LV.congr hx)
    | m a => exact congrArg Expr.m (LMt.congr hx)

theorem Rep.vk {h : ExpHeap} {l : List R} : Rep lo LV h (.k l) (.k l) := ⟨fun y hy => (by cases hy), rfl⟩
theorem Rep.vv {h : ExpHeap} {l : List (Var R)} : Rep lo LV h (.v l) (.v l) := ⟨fun y hy => (by cases hy), rfl⟩
theorem Rep.vm {h : ExpHeap} {l : List (HMono R)} {ms : List (Mono R)} (hl : Rep lo LM.list h l ms) :
    Rep lo LV h (.m l) (.m ms) := ⟨hl.valid, congrArg Vec.m hl.load⟩
theorem Rep.vp {h : ExpHeap} {l : List (HPoly R)} {ps : List (Poly R)} (hl : Rep lo LP.list h l ps) :
    Rep lo LV h (.p l) (.p ps) := ⟨hl.valid, congrArg Vec.p hl.load⟩

theorem Rep.vk_inv {h : ExpHeap} {l : List R} {x : Vec R} (hx : Rep lo LV h (.k l) x) : x = .k l := hx.load.symm
theorem Rep.vv_inv {h : ExpHeap} {l : List (Var R)} {x : Vec R} (hx : Rep lo LV h (.v l) x) : x = .v l := hx.load.symm
theorem Rep.vm_inv {h : ExpHeap} {l : List (HMono R)} {x : Vec R} (hx : Rep lo LV h (.m l) x) :
    ∃ ms, x = .m ms ∧ Rep lo LM.list h l ms := ⟨_, hx.load.symm, hx.valid, rfl⟩
theorem Rep.vp_inv {h : ExpHeap} {l : List (HPoly R)} {x : Vec R} (hx : Rep lo LV h (.p l) x) :
    ∃ ps, x = .p ps ∧ Rep lo LP.list h l ps := ⟨_, hx.load.symm, hx.valid, rfl⟩

theorem Rep.matk {h : ExpHeap} {l : List (List R)} : Rep lo LMt h (.k l) (.k l) := ⟨fun y hy => (by cases hy), rfl⟩
theorem Rep.matv {h : ExpHeap} {l : List (List (Var R))} : Rep lo LMt h (.v l) (.v l) :=
  ⟨fun y hy => (by cases hy), rfl⟩
theorem Rep.matm {h : ExpHeap} {l : List (List (HMono R))} {ms : List (List (Mono R))} (hl : Rep lo LM.list.list h l ms) :
    Rep lo LMt h (.m l) (.m ms) := ⟨hl.valid, congrArg Mat.m hl.load⟩
theorem Rep.matp {h : ExpHeap} {l : List (List (HPoly R))} {ps : List (List (Poly R))} (hl : Rep lo LP.list.list h l ps) :
    Rep lo LMt h (.p l) (.p ps) := ⟨hl.valid, congrArg Mat.p hl.load⟩

theorem Rep.matk_inv {h : ExpHeap} {l : List (List R)} {x : Mat R} (hx : Rep lo LMt h (.k l) x) : x = .k l :=
  hx.load.symm
theorem Rep.matv_inv {h : ExpHeap} {l : List (List (Var R))} {x : Mat R} (hx : Rep lo LMt h (.v l) x) : x = .v l :=
  hx.load.symm
theorem Rep.matm_inv {h : ExpHeap} {l : List (List (HMono R))} {x : Mat R} (hx : Rep lo LMt h (.m l) x) :
    ∃ ms, x = .m ms ∧ Rep lo LM.list.list h l ms := ⟨_, hx.load.symm, hx.valid, rfl⟩
theorem Rep.matp_inv {h : ExpHeap} {l : List (List (HPoly R))} {x : Mat R} (hx : Rep lo LMt h (.p l) x) :
    ∃ ps, x = .p ps ∧ Rep lo LP.list.list h l ps := ⟨_, hx.load.symm, hx.valid, rfl⟩

theorem Rep.es {h : ExpHeap} {e : HScalar R} {x : Scalar R} (he : Rep lo LS h e x) : Rep lo LE h (.s e) (.s x) :=
  ⟨he.valid, congrArg Expr.s he.load⟩
theorem Rep.ev {h : ExpHeap} {e : AVec R} {x : Vec R} (he : Rep lo LV h e x) : Rep lo LE h (.v e) (.v x) :=
  ⟨he.valid, congrArg Expr.v he.load⟩
theorem Rep.em {h : ExpHeap} {e : AMat R} {x : Mat R} (he : Rep lo LMt h e x) : Rep lo LE h (.m e) (.m x) :=
  ⟨he.valid, congrArg Expr.m he.load⟩

theorem Rep.es_inv {h : ExpHeap} {e : HScalar R} {x : Expr R} (hx : Rep lo LE h (.s e) x) :
    ∃ s, x = .s s ∧ Rep lo LS h e s := ⟨_, hx.load.symm, hx.valid, rfl⟩
theorem Rep.ev_inv {h : ExpHeap} {e : AVec R} {x : Expr R} (hx : Rep lo LE h (.v e) x) :
    ∃ s, x = .v s ∧ Rep lo LV h e s := ⟨_, hx.load.symm, hx.valid, rfl⟩
theorem Rep.em_inv {h : ExpHeap} {e : AMat R} {x : Expr R} (hx : Rep lo LE h (.m e) x) :
    ∃ s, x = .m s ∧ Rep lo LMt h e s := ⟨_, hx.load.symm, hx.valid, rfl⟩

theorem Rep.monoL {h : ExpHeap} {e : HMono R} {x : Scalar R} (hx : Rep lo LS h (.mono e) x) :
    ∃ m, x = .mono m ∧ Rep lo LM h e m := Rep.mono_iff.mp hx

/-- Lists of equal length whose members correspond. -/
theorem Rep.mapList {α A β B : Type} {L : Loader α A} {M : Loader β B} {h : ExpHeap} {f : α → β} {g : A → B}
    (hf : ∀ a x, Rep lo L h a x → Rep lo M h (f a) (g x)) (l : List α) : ∀ {xs : List A}, Rep lo L.list h l xs →
    Rep lo M.list h (l.map f) (xs.map g) := by
  induction l with
  | nil => intro xs hl; rw [hl.nil_inv]; exact Rep.nil
  | cons a l ih =>
    intro xs hl
    obtain ⟨y, ys, rfl, h1, h2⟩ := hl.cons_inv
    exact (hf a y h1).cons (ih h2)

theorem Rep.anyList {α A : Type} {L : Loader α A} {h : ExpHeap} {f : α → Bool} {g : A → Bool}
    (hf : ∀ a x, Rep lo L h a x → f a = g x) (l : List α) : ∀ {xs : List A}, Rep lo L.list h l xs →
    l.any f = xs.any g := by
  induction l with
  | nil => intro xs hl; rw [hl.nil_inv]; rfl
  | cons a l ih =>
    intro xs hl
    obtain ⟨y, ys, rfl, h1, h2⟩ := hl.cons_inv
    rw [List.any_cons, List.any_cons, hf a y h1, ih h2]

theorem Rep.allList {α A : Type} {L : Loader α A} {h : ExpHeap} {f : α → Bool} {g : A → Bool}
    (hf : ∀ a x, Rep lo L h a x → f a = g x) (l : List α) : ∀ {xs : List A}, Rep lo L.list h l xs →
    l.all f = xs.all g := by
  induction l with
  | nil => intro xs hl; rw [hl.nil_inv]; rfl
  | cons a l ih =>
    intro xs hl
    obtain ⟨y, ys, rfl, h1, h2⟩ := hl.cons_inv
    rw [List.all_cons, List.all_cons, hf a y h1, ih h2]

theorem Rep.length {α A : Type} {L : Loader α A} {h : ExpHeap} {l : List α} {xs : List A} (hl : Rep lo L.list h l xs) :
    l.length = xs.length := by
  rw [← hl.load]
  exact (List.length_map _).symm

theorem Rep.flatten {α A : Type} {L : Loader α A} {h : ExpHeap} (l : List (List α)) : ∀ {xs : List (List A)},
    Rep lo L.list.list h l xs → Rep lo L.list h l.flatten xs.flatten := by
  induction l with
  | nil => intro xs hl; rw [hl.nil_inv]; exact Rep.nil
  | cons a l ih =>
    intro xs hl
    obtain ⟨y, ys, rfl, h1, h2⟩ := hl.cons_inv
    exact h1.append (ih h2)

/-- A slice with its indices. -/
def Loader.idx {α A : Type} (L : Loader α A) : Loader (α × ℕ) (A × ℕ) where
  addrs q := L.addrs q.1
  load h q := (L.load h q.1, q.2)
  congr hx := by rw [L.congr hx]

theorem Rep.idx_inv {α A : Type} {L : Loader α A} {h : ExpHeap} {a : α × ℕ} {x : A × ℕ} (hx : Rep lo L.idx h a x) :
    a.2 = x.2 ∧ Rep lo L h a.1 x.1 := by
  obtain ⟨h1, rfl⟩ := hx
  exact ⟨rfl, h1, rfl⟩

theorem Rep.zipIdx {α A : Type} {L : Loader α A} {h : ExpHeap} (l : List α) : ∀ {xs : List A} (n : ℕ),
    Rep lo L.list h l xs → Rep lo L.idx.list h (l.zipIdx n) (xs.zipIdx n) := by
  induction l with
  | nil => intro xs n hl; rw [hl.nil_inv]; exact Rep.nil
  | cons a l ih =>
    intro xs n hl
    obtain ⟨y, ys, rfl, h1, h2⟩ := hl.cons_inv
    rw [List.zipIdx_cons, List.zipIdx_cons]
    exact Rep.cons ⟨h1.valid, by rw [← h1.load]; rfl⟩ (ih _ h2)

theorem Rep.drop {α A : Type} {L : Loader α A} {h : ExpHeap} {l : List α} {xs : List A} (n : ℕ)
    (hl : Rep lo L.list h l xs) : Rep lo L.list h (l.drop n) (xs.drop n) := by
  induction n generalizing l xs with
  | zero => exact hl
  | succ n ih =>
    cases l with
    | nil => rw [hl.nil_inv]; exact Rep.nil
    | cons a l =>
      obtain ⟨y, ys, rfl, -, h2⟩ := hl.cons_inv
      exact ih h2

/-! ## Values and indices -/

theorem vVal_bind {lo1 : ℕ} {α γ C : Type} {N : Loader γ C} {a : AVec R} {x : Vec R} {h : Heap R} {q : Vec R → Go α}
    {f : α → PM (Heap R) γ} {g : α → Go C} (ha : Rep lo1 LV h.exps a x)
    (h2 : ∀ z, q x = .ok z → Ref lo N (f z) h (g z)) : Ref lo N (vVal a q >>= f) h (q x >>= g) :=
  Ref.readBind (congrArg q ha.load) h2

theorem mVal_bind {lo1 : ℕ} {α γ C : Type} {N : Loader γ C} {a : AMat R} {x : Mat R} {h : Heap R} {q : Mat R → Go α}
    {f : α → PM (Heap R) γ} {g : α → Go C} (ha : Rep lo1 LMt h.exps a x)
    (h2 : ∀ z, q x = .ok z → Ref lo N (f z) h (g z)) : Ref lo N (mVal a q >>= f) h (q x >>= g) :=
  Ref.readBind (congrArg q ha.load) h2

theorem eVal_bind {lo1 : ℕ} {α γ C : Type} {N : Loader γ C} {a : AExpr R} {x : Expr R} {h : Heap R} {q : Expr R → Go α}
    {f : α → PM (Heap R) γ} {g : α → Go C} (ha : Rep lo1 LE h.exps a x)
    (h2 : ∀ z, q x = .ok z → Ref lo N (f z) h (g z)) : Ref lo N (eVal a q >>= f) h (q x >>= g) :=
  Ref.readBind (congrArg q ha.load) h2

theorem pGo_bind {α γ C : Type} {N : Loader γ C} {h : Heap R} {y : Go α}
    {f : α → PM (Heap R) γ} {g : α → Go C} (h2 : ∀ z, y = .ok z → Ref lo N (f z) h (g z)) :
    Ref lo N (pGo y >>= f) h (y >>= g) := Ref.readBind rfl h2

theorem goGet_ref {α A : Type} {L : Loader α A} {l : List α} {xs : List A} {h : Heap R} (hl : Rep lo L.list h.exps l xs)
    (i : ℤ) : Ref lo L (pGo (goGet l i)) h (goGet xs i) := by
  unfold goGet
  by_cases hi : i < 0
  · rw [if_pos hi, if_pos hi]; exact Ref.panic
  · rw [if_neg hi, if_neg hi]
    rcases hl.getElem? i.toNat with ⟨h1, h2⟩ | ⟨a, x, h1, h2, h3⟩
    · rw [h1, h2]; exact Ref.panic
    · rw [h1, h2]; exact Ref.pure h3

theorem pGo_assoc {α β : Type} (x : Go α) (f : α → Go β) :
    (pGo (x >>= f) : PM (Heap R) β) = pGo x >>= fun a => pGo (f a) := by
  cases x <;> rfl

theorem goGet2_ref {α A : Type} {L : Loader α A} {l : List (List α)} {xs : List (List A)} {h : Heap R}
    (hl : Rep lo L.list.list h.exps l xs) (i j : ℤ) : Ref lo L (pGo (goGet2 l i j)) h (goGet2 xs i j) := by
  unfold goGet2
  rw [pGo_assoc]
  exact Ref.bind (goGet_ref hl i) fun r z h' _ _ hr => goGet_ref hr j

theorem Rep.constElem {α : Type} {h : ExpHeap} {a : α} : Rep lo (Loader.const α) h a a :=
  ⟨fun y hy => (by cases hy), rfl⟩

theorem Rep.ks {h : ExpHeap} (l : List R) : Rep lo LS.list h (l.map HScalar.k) (l.map Scalar.k) := by
  induction l with
  | nil => exact Rep.nil
  | cons a l ih => exact Rep.k.cons ih

theorem Rep.vars' {h : ExpHeap} (l : List (Var R)) : Rep lo LS.list h (l.map HScalar.var) (l.map Scalar.var) := by
  induction l with
  | nil => exact Rep.nil
  | cons a l ih => exact Rep.var.cons ih

theorem Rep.entriesV {h : ExpHeap} {a : AVec R} {x : Vec R} (ha : Rep lo LV h a x) :
    Rep lo LS.list h a.entries x.entries := by
  cases a with
  | k l => rw [ha.vk_inv]; exact Rep.ks l
  | v l => rw [ha.vv_inv]; exact Rep.vars' l
  | m l =>
    obtain ⟨ms, rfl, hm⟩ := ha.vm_inv
    exact hm.mapList fun _ _ h1 => h1.toMono
  | p l =>
    obtain ⟨ms, rfl, hm⟩ := ha.vp_inv
    exact hm.mapList fun _ _ h1 => h1.polyS

theorem Rep.entriesM {h : ExpHeap} {a : AMat R} {x : Mat R} (ha : Rep lo LMt h a x) :
    Rep lo LS.list.list h a.entries x.entries := by
  cases a with
  | k l =>
    rw [ha.matk_inv]
    exact (Rep.constList (α := List R) l).mapList fun a x h1 => by rw [h1.const]; exact Rep.ks _
  | v l =>
    rw [ha.matv_inv]
    exact (Rep.constList (α := List (Var R)) l).mapList fun a x h1 => by rw [h1.const]; exact Rep.vars' _
  | m l =>
    obtain ⟨ms, rfl, hm⟩ := ha.matm_inv
    exact hm.mapList fun _ _ h1 => h1.mapList fun _ _ h2 => h2.toMono
  | p l =>
    obtain ⟨ms, rfl, hm⟩ := ha.matp_inv
    exact hm.mapList fun _ _ h1 => h1.mapList fun _ _ h2 => h2.polyS

theorem ite_ref {γ C : Type} {N : Loader γ C} {p : Prop} [Decidable p] {x y : PM (Heap R) γ} {u v : Go C} {h : Heap R}
    (h1 : p → Ref lo N x h u) (h2 : ¬ p → Ref lo N y h v) :
    Ref lo N (if p then x else y) h (if p then u else v) := by
  split
  · exact h1 (by assumption)
  · exact h2 (by assumption)

/-! ## At -/

theorem goGet_map {α β : Type} (f : α → β) (l : List α) (i : ℤ) : goGet (l.map f) i = (goGet l i >>= fun a => .ok (f a)) := by
  unfold goGet
  split
  · rfl
  · rw [List.getElem?_map]
    cases l[i.toNat]? <;> rfl

theorem goGet2_map {α β : Type} (f : α → β) (l : List (List α)) (i j : ℤ) :
    goGet2 (l.map (·.map f)) i j = (goGet2 l i j >>= fun a => .ok (f a)) := by
  unfold goGet2
  rw [goGet_map]
  cases goGet l i with
  | error e => rfl
  | ok r => exact goGet_map f r j

theorem bind_drop {α β : Type} {x : Go α} {f : α → Go β} {b : β} (h : x >>= f = .ok b) : ∃ a, x = .ok a ∧ f a = .ok b :=
  Go.bind_eq_ok.mp h

theorem atVec_entries {x : Vec R} {i : ℤ} {s : Scalar R} (h : x.atVec i = .ok s) : goGet x.entries i = .ok s := by
  cases x with
  | k l =>
    obtain ⟨_, _, h⟩ := Go.bind_eq_ok.mp h
    exact (goGet_map _ _ _).trans h
  | v l =>
    obtain ⟨_, _, h⟩ := Go.bind_eq_ok.mp h
    exact (goGet_map _ _ _).trans h
  | m l =>
    obtain ⟨_, _, h⟩ := Go.bind_eq_ok.mp h
    exact (goGet_map _ _ _).trans h
  | p l =>
    obtain ⟨_, _, h⟩ := Go.bind_eq_ok.mp h
    obtain ⟨_, _, h⟩ := Go.bind_eq_ok.mp h
    obtain ⟨_, _, h⟩ := Go.bind_eq_ok.mp h
    exact (goGet_map _ _ _).trans h

theorem vecAt_entries {x : Vec R} {i j : ℤ} {s : Scalar R} (h : x.at i j = .ok s) : goGet x.entries i = .ok s := by
  cases x with
  | k l =>
    obtain ⟨_, _, h⟩ := Go.bind_eq_ok.mp h
    exact atVec_entries h
  | v l =>
    obtain ⟨_, _, h⟩ := Go.bind_eq_ok.mp h
    obtain ⟨_, _, h⟩ := Go.bind_eq_ok.mp h
    exact (goGet_map _ _ _).trans h
  | m l =>
    obtain ⟨_, _, h⟩ := Go.bind_eq_ok.mp h
    obtain ⟨_, _, h⟩ := Go.bind_eq_ok.mp h
    exact (goGet_map _ _ _).trans h
  | p l =>
    obtain ⟨_, _, h⟩ := Go.bind_eq_ok.mp h
    obtain ⟨_, _, h⟩ := Go.bind_eq_ok.mp h
    obtain ⟨_, _, h⟩ := Go.bind_eq_ok.mp h
    exact (goGet_map _ _ _).trans h

theorem goGet_ok {α : Type} {l : List α} {i : ℤ} {a : α} (h : goGet l i = .ok a) : ¬ i < 0 ∧ l[i.toNat]? = some a := by
  unfold goGet at h
  split at h
  · cases h
  · refine ⟨by assumption, ?_⟩
    cases h1 : l[i.toNat]? with
    | none => rw [h1] at h; cases h
    | some b => rw [h1] at h; cases h; rfl

theorem goGet_of {α : Type} {l : List α} {i : ℤ} {a : α} (h : ¬ i < 0) (h1 : l[i.toNat]? = some a) : goGet l i = .ok a := by
  unfold goGet
  rw [if_neg h, h1]
  rfl

theorem mapM_getElem? {α β : Type} {f : α → Go β} (l : List α) : ∀ {ys : List β}, l.mapM f = .ok ys → ∀ {i : ℕ} {y : β},
    ys[i]? = some y → ∃ a, l[i]? = some a ∧ f a = .ok y := by
  induction l with
  | nil =>
    intro ys h i y hy
    cases h
    cases hy
  | cons a l ih =>
    intro ys h i y hy
    rw [List.mapM_cons] at h
    obtain ⟨b, h1, h⟩ := Go.bind_eq_ok.mp h
    obtain ⟨bs, h2, h⟩ := Go.bind_eq_ok.mp h
    cases h
    cases i with
    | zero => cases hy; exact ⟨a, rfl, h1⟩
    | succ i => exact ih h2 hy

theorem kToDense_goGet2 {rows d : List (List R)} (h : kToDense rows = .ok d) {i j : ℤ} {c : R}
    (hc : goGet2 d i j = .ok c) : goGet2 rows i j = .ok c := by
  unfold kToDense at h
  obtain ⟨n, -, h⟩ := Go.bind_eq_ok.mp h
  dsimp only at h
  by_cases hn : n.2 = 0
  · rw [if_pos hn] at h; cases h
  rw [if_neg hn] at h
  obtain ⟨r, h1, h2⟩ := Go.bind_eq_ok.mp hc
  obtain ⟨hi, h1⟩ := goGet_ok h1
  obtain ⟨hj, h2⟩ := goGet_ok h2
  obtain ⟨row, h3, h4⟩ := mapM_getElem? _ h h1
  obtain ⟨k, h5, h6⟩ := mapM_getElem? _ h4 h2
  have hk : k = j.toNat := by
    obtain ⟨h7, h8⟩ := List.getElem?_eq_some_iff.mp h5
    rw [← h8]; simp
  refine Go.bind_eq_ok.mpr ⟨row, goGet_of hi h3, ?_⟩
  rw [hk, Int.toNat_of_nonneg (by omega)] at h6
  exact h6

theorem matAt_entries {x : Mat R} {i j : ℤ} {s : Scalar R} (h : x.at i j = .ok s) : goGet2 x.entries i j = .ok s := by
  cases x with
  | k l =>
    obtain ⟨d, h1, h⟩ := Go.bind_eq_ok.mp h
    obtain ⟨c, h2, h⟩ := Go.bind_eq_ok.mp h
    refine (goGet2_map _ _ _ _).trans ?_
    rw [kToDense_goGet2 h1 h2]
    exact h
  | v l =>
    obtain ⟨_, _, h⟩ := Go.bind_eq_ok.mp h
    exact (goGet2_map _ _ _ _).trans h
  | m l =>
    obtain ⟨_, _, h⟩ := Go.bind_eq_ok.mp h
    exact (goGet2_map _ _ _ _).trans h
  | p l =>
    obtain ⟨_, _, h⟩ := Go.bind_eq_ok.mp h
    obtain ⟨_, _, h⟩ := Go.bind_eq_ok.mp h
    obtain ⟨_, _, h⟩ := Go.bind_eq_ok.mp h
    exact (goGet2_map _ _ _ _).trans h

theorem bind_ok_self {α : Type} (x : Go α) : x = x >>= fun a => .ok a := by cases x <;> rfl

theorem aAtVec_ref {a : AVec R} {x : Vec R} {h : Heap R} (ha : Rep lo LV h.exps a x) (i : ℤ) :
    Ref lo LS (aAtVec a i) h (x.atVec i) := by
  rw [bind_ok_self (x.atVec i)]
  refine vVal_bind ha fun z hz => ?_
  rw [← atVec_entries hz]
  exact goGet_ref ha.entriesV i

theorem aVecAt_ref {a : AVec R} {x : Vec R} {h : Heap R} (ha : Rep lo LV h.exps a x) (i j : ℤ) :
    Ref lo LS (aVecAt a i j) h (x.at i j) := by
  rw [bind_ok_self (x.at i j)]
  refine vVal_bind (q := fun x => x.at i j) ha fun z hz => ?_
  rw [← vecAt_entries hz]
  exact goGet_ref ha.entriesV i

theorem aMatAt_ref {a : AMat R} {x : Mat R} {h : Heap R} (ha : Rep lo LMt h.exps a x) (i j : ℤ) :
    Ref lo LS (aMatAt a i j) h (x.at i j) := by
  rw [bind_ok_self (x.at i j)]
  refine mVal_bind (q := fun x => x.at i j) ha fun z hz => ?_
  rw [← matAt_entries hz]
  exact goGet2_ref ha.entriesM i j

theorem aAt_ref {a : AExpr R} {x : Expr R} {h : Heap R} (ha : Rep lo LE h.exps a x) (i j : ℤ) :
    Ref lo LS (aAt a i j) h (x.at i j) := by
  cases a with
  | s e =>
    obtain ⟨s, rfl, he⟩ := ha.es_inv
    exact hCheck_bind he (pGo_bind fun _ _ => Ref.pure he)
  | v e =>
    obtain ⟨s, rfl, he⟩ := ha.ev_inv
    exact aVecAt_ref he i j
  | m e =>
    obtain ⟨s, rfl, he⟩ := ha.em_inv
    exact aMatAt_ref he i j

/-! ## Concretize -/

theorem isK_eq {h : ExpHeap} (e : HScalar R) (s : Scalar R) (he : Rep lo LS h e s) : e.isK = s.isK := by
  rw [← he.load]; cases e <;> rfl
theorem isVar_eq {h : ExpHeap} (e : HScalar R) (s : Scalar R) (he : Rep lo LS h e s) : e.isVar = s.isVar := by
  rw [← he.load]; cases e <;> rfl
theorem isMono_eq {h : ExpHeap} (e : HScalar R) (s : Scalar R) (he : Rep lo LS h e s) : e.isMono = s.isMono := by
  rw [← he.load]; cases e <;> rfl
theorem isPoly_eq {h : ExpHeap} (e : HScalar R) (s : Scalar R) (he : Rep lo LS h e s) : e.isPoly = s.isPoly := by
  rw [← he.load]; cases e <;> rfl

theorem aToPoly_ref {e : HScalar R} {s : Scalar R} {h : Heap R} (he : Rep lo LS h.exps e s) :
    Ref lo LP (aToPoly e) h (.ok s.toPoly) := by
  cases e with
  | k c => rw [he.k_inv]; exact Ref.bindOk (hNew_ref _ h) fun x h' _ hx => Ref.pure (hx.cons Rep.nil).ofMonos
  | var v => rw [he.var_inv]; exact Ref.bindOk (hNew_ref _ h) fun x h' _ hx => Ref.pure (hx.cons Rep.nil).ofMonos
  | mono m =>
    obtain ⟨n, rfl, hm⟩ := Rep.mono_iff.mp he
    exact Ref.bindOk (hCopy_ref hm) fun x h' _ hx => Ref.pure (hx.cons Rep.nil).ofMonos
  | poly p =>
    obtain ⟨q, rfl, hp⟩ := he.polyP
    exact Ref.pure hp

theorem aToMono_ref {e : HScalar R} {s : Scalar R} {h : Heap R} (he : Rep lo LS h.exps e s) :
    Ref lo LM (aToMono e) h s.toMono := by
  cases e with
  | k c => rw [he.k_inv]; exact hNew_ref _ h
  | var v => rw [he.var_inv]; exact hNew_ref _ h
  | mono m =>
    obtain ⟨n, rfl, hm⟩ := Rep.mono_iff.mp he
    exact Ref.pure hm
  | poly p =>
    obtain ⟨q, rfl, hp⟩ := he.polyP
    exact Ref.panic

theorem aToVar_ref {e : HScalar R} {s : Scalar R} {h : Heap R} (he : Rep lo LS h.exps e s) :
    Ref lo (Loader.const _) (aToVar e) h s.toVar := by
  rw [← he.load]
  cases e <;> first | exact Ref.panic | exact Ref.pure Rep.constElem

theorem aToK_ref {e : HScalar R} {s : Scalar R} {h : Heap R} (he : Rep lo LS h.exps e s) :
    Ref lo (Loader.const _) (aToK e) h s.toK := by
  rw [← he.load]
  cases e <;> first | exact Ref.panic | exact Ref.pure Rep.constElem

theorem Rep.constList_inv {α : Type} {h : ExpHeap} (l : List α) : ∀ {xs : List α}, Rep lo (Loader.const α).list h l xs →
    l = xs := by
  intro xs hl
  rw [← hl.load]
  exact (List.map_id l).symm

theorem Rep.constList2_inv {α : Type} {h : ExpHeap} (l : List (List α)) {xs : List (List α)}
    (hl : Rep lo (Loader.const α).list.list h l xs) : l = xs := by
  rw [← hl.load]
  show l = l.map (fun r => r.map id)
  simp

theorem concretizeVec_eq (l : List (Scalar R)) : concretizeVec l =
    if l.isEmpty then .error .empty
    else if l.any Scalar.isPoly then .ok (.p (l.map Scalar.toPoly))
    else if l.any Scalar.isMono || (l.any Scalar.isK && l.any Scalar.isVar) then
      l.mapM Scalar.toMono >>= fun ms => .ok (.m ms)
    else if l.all Scalar.isVar then l.mapM Scalar.toVar >>= fun vs => .ok (.v vs)
    else if l.any Scalar.isK then l.mapM Scalar.toK >>= fun ks => .ok (.k ks)
    else .error .other := by
  cases l with
  | nil => rfl
  | cons a l => rfl

theorem aConcretizeVec_ref {l : List (HScalar R)} {xs : List (Scalar R)} {h : Heap R} (hl : Rep lo LS.list h.exps l xs) :
    Ref lo LV (aConcretizeVec l) h (concretizeVec xs) := by
  rw [concretizeVec_eq]
  unfold aConcretizeVec
  rw [hl.isEmpty, hl.anyList isPoly_eq, hl.anyList isMono_eq, hl.anyList isK_eq, hl.anyList isVar_eq,
    hl.allList isVar_eq]
  refine ite_ref (fun _ => Ref.panic) fun _ => ?_
  refine ite_ref (fun _ => ?_) fun _ => ?_
  · have h1 := Ref.traverse (lo := lo) (M := LP) (f := aToPoly) (g := fun n => .ok n.toPoly) l hl
      fun a x h' _ ha => aToPoly_ref ha
    rw [mapM_pure_map] at h1
    exact Ref.bindOk h1 fun ps h' _ hps => Ref.pure hps.vp
  refine ite_ref (fun _ => ?_) fun _ => ?_
  · exact Ref.bind (Ref.traverse l hl fun a x h' _ ha => aToMono_ref ha) fun ps z h' _ _ hps => Ref.pure hps.vm
  refine ite_ref (fun _ => ?_) fun _ => ?_
  · refine Ref.bind (Ref.traverse l hl fun a x h' _ ha => aToVar_ref ha) fun ps z h' _ _ hps => ?_
    rw [hps.constList_inv]
    exact Ref.pure Rep.vv
  refine ite_ref (fun _ => ?_) fun _ => Ref.panic
  refine Ref.bind (Ref.traverse l hl fun a x h' _ ha => aToK_ref ha) fun ps z h' _ _ hps => ?_
  rw [hps.constList_inv]
  exact Ref.pure Rep.vk

theorem concretizeMat_eq (rows : List (List (Scalar R))) : concretizeMat rows =
    rowsCheck rows >>= fun _ =>
    if rows.flatten.any Scalar.isPoly then .ok (.p (rows.map (·.map Scalar.toPoly)))
    else if rows.flatten.any Scalar.isMono || (rows.flatten.any Scalar.isVar && rows.flatten.any Scalar.isK) then
      rows.mapM (·.mapM Scalar.toMono) >>= fun ms => .ok (.m ms)
    else if rows.flatten.all Scalar.isVar then rows.mapM (·.mapM Scalar.toVar) >>= fun vs => .ok (.v vs)
    else if rows.flatten.any Scalar.isK then rows.mapM (·.mapM Scalar.toK) >>= fun ks => .ok (.k ks)
    else .error .other := by
  cases rows with
  | nil => rfl
  | cons a l => rfl

theorem rowsCheck_lengths {α β : Type} (l : List (List α)) (xs : List (List β))
    (h : l.map List.length = xs.map List.length) : rowsCheck l = rowsCheck xs := by
  have hf : ∀ (n : ℕ) (l : List (List α)) (xs : List (List β)), l.map List.length = xs.map List.length →
      l.forM (fun row => if row.length ≠ n then (throw .other : Go Unit) else pure ()) =
        xs.forM (fun row => if row.length ≠ n then (throw .other : Go Unit) else pure ()) := by
    intro n l
    induction l with
    | nil => intro xs h; cases xs with
      | nil => rfl
      | cons => cases h
    | cons a l ih =>
      intro xs h
      cases xs with
      | nil => cases h
      | cons b xs =>
        rw [List.map_cons, List.map_cons, List.cons.injEq] at h
        have h1 := ih xs h.2
        show (if a.length ≠ n then (throw .other : Go Unit) else pure ()) >>= (fun _ => l.forM _) =
          (if b.length ≠ n then (throw .other : Go Unit) else pure ()) >>= fun _ => xs.forM _
        rw [h.1, h1]
  cases l with
  | nil => cases xs with
    | nil => rfl
    | cons => cases h
  | cons a l =>
    cases xs with
    | nil => cases h
    | cons b xs =>
      have h' := h
      rw [List.map_cons, List.map_cons, List.cons.injEq] at h'
      unfold rowsCheck
      dsimp only
      rw [h'.1]
      exact hf _ _ _ h

theorem Rep.rowsCheck {α A : Type} {L : Loader α A} {h : ExpHeap} {l : List (List α)} {xs : List (List A)}
    (hl : Rep lo L.list.list h l xs) : rowsCheck l = rowsCheck xs := by
  refine rowsCheck_lengths _ _ ?_
  rw [← hl.load]
  show _ = List.map _ (l.map (L.list.load h))
  rw [List.map_map]
  exact List.map_congr_left fun r _ => (List.length_map _).symm

theorem Rep.rowDims {α A : Type} {L : Loader α A} {h : ExpHeap} {l : List (List α)} {xs : List (List A)}
    (hl : Rep lo L.list.list h l xs) : rowDims l = rowDims xs := by
  cases l with
  | nil => rw [hl.nil_inv]; rfl
  | cons a l =>
    obtain ⟨y, ys, rfl, h1, h2⟩ := hl.cons_inv
    show (Except.ok (l.length + 1, a.length) : Go _) = Except.ok (ys.length + 1, y.length)
    rw [h1.length, h2.length]

theorem mapM_mapM_pure {α β : Type} (f : α → β) (l : List (List α)) :
    (l.mapM fun r => r.mapM fun a => (.ok (f a) : Go β)) = .ok (l.map (·.map f)) := by
  rw [show (fun r : List α => r.mapM fun a => (.ok (f a) : Go β)) = fun r => .ok (r.map f) from
    funext (mapM_pure_map f)]
  exact mapM_pure_map _ l

/-- A loop over values, such as indices. -/
theorem Ref.each {α β B : Type} {M : Loader β B} {f : α → PM (Heap R) β} {g : α → Go B} (l : List α) {h : Heap R}
    (hf : ∀ a, ∀ h' : Heap R, h.exps <+: h'.exps → Ref lo M (f a) h' (g a)) :
    Ref lo M.list (PM.traverse f l) h (l.mapM g) :=
  Ref.traverse (lo1 := 0) l (Rep.constList l) fun a x h' hp ha => by rw [ha.const]; exact hf x h' hp

theorem Ref.accum {α β B : Type} {M : Loader β B} {f : β → α → PM (Heap R) β} {g : B → α → Go B} (l : List α)
    {h : Heap R} {b : β} {y : B} (hb : Rep lo M h.exps b y)
    (hf : ∀ a b y, ∀ h' : Heap R, h.exps <+: h'.exps → Rep lo M h'.exps b y → Ref lo M (f b a) h' (g y a)) :
    Ref lo M (PM.foldl f l b) h (l.foldlM g y) :=
  Ref.foldl (lo1 := 0) l (Rep.constList l) hb fun a x b y h' hp ha hb => by
    rw [ha.const]; exact hf x b y h' hp hb

/-- Entry by entry. -/
theorem Ref.traverse2 {α β A B : Type} {lo1 : ℕ} {L : Loader α A} {M : Loader β B} {f : α → PM (Heap R) β} {g : A → Go B}
    (l : List (List α)) {h : Heap R} {xs : List (List A)} (hl : Rep lo1 L.list.list h.exps l xs)
    (hf : ∀ a x, ∀ h' : Heap R, h.exps <+: h'.exps → Rep lo1 L h'.exps a x → Ref lo M (f a) h' (g x)) :
    Ref lo M.list.list (PM.traverse (PM.traverse f) l) h (xs.mapM (·.mapM g)) :=
  Ref.traverse l hl fun r _ _ hp hr => Ref.traverse r hr fun a x h'' hp' => hf a x h'' (hp.trans hp')

theorem aConcretizeMat_ref {l : List (List (HScalar R))} {xs : List (List (Scalar R))} {h : Heap R}
    (hl : Rep lo LS.list.list h.exps l xs) : Ref lo LMt (aConcretizeMat l) h (concretizeMat xs) := by
  rw [concretizeMat_eq]
  unfold aConcretizeMat
  rw [hl.rowsCheck, hl.flatten.anyList isPoly_eq, hl.flatten.anyList isMono_eq, hl.flatten.anyList isK_eq,
    hl.flatten.anyList isVar_eq, hl.flatten.allList isVar_eq]
  refine pGo_bind fun _ _ => ?_
  refine ite_ref (fun _ => ?_) fun _ => ?_
  · have h1 := Ref.traverse2 (lo := lo) (M := LP) (f := aToPoly) (g := fun n => .ok n.toPoly) l hl
      fun a x h' _ ha => aToPoly_ref ha
    rw [mapM_mapM_pure] at h1
    exact Ref.bindOk h1 fun ps h' _ hps => Ref.pure hps.matp
  refine ite_ref (fun _ => ?_) fun _ => ?_
  · exact Ref.bind (Ref.traverse2 l hl fun a x h' _ ha => aToMono_ref ha) fun ps z h' _ _ hps => Ref.pure hps.matm
  refine ite_ref (fun _ => ?_) fun _ => ?_
  · refine Ref.bind (Ref.traverse2 l hl fun a x h' _ ha => aToVar_ref ha) fun ps z h' _ _ hps => ?_
    rw [hps.constList2_inv]
    exact Ref.pure Rep.matv
  refine ite_ref (fun _ => ?_) fun _ => Ref.panic
  refine Ref.bind (Ref.traverse2 l hl fun a x h' _ ha => aToK_ref ha) fun ps z h' _ _ hps => ?_
  rw [hps.constList2_inv]
  exact Ref.pure Rep.matk

theorem aConcretizeV_ref {l : List (HScalar R)} {xs : List (Scalar R)} {h : Heap R} (hl : Rep lo LS.list h.exps l xs) :
    Ref lo LE (aConcretizeV l) h (concretizeV xs) := by
  refine Ref.bind (aConcretizeVec_ref hl) fun v x h' _ _ hv => ?_
  refine vVal_bind hv fun d _ => ?_
  refine ite_ref (fun _ => ?_) fun _ => Ref.pure hv.ev
  exact Ref.bind (aVecAt_ref hv 0 0) fun y z h'' _ _ hy => Ref.pure hy.es

theorem aConcretizeM_ref {l : List (List (HScalar R))} {xs : List (List (Scalar R))} {h : Heap R}
    (hl : Rep lo LS.list.list h.exps l xs) : Ref lo LE (aConcretizeM l) h (concretizeM xs) := by
  refine Ref.bind (aConcretizeMat_ref hl) fun v x h' _ _ hv => ?_
  refine mVal_bind hv fun d _ => ?_
  refine ite_ref (fun _ => ?_) fun _ => ite_ref (fun _ => ?_) fun _ => Ref.pure hv.em
  · exact Ref.bind (aMatAt_ref hv 0 0) fun y z h'' _ _ hy => Ref.pure hy.es
  · refine Ref.bind (Ref.each _ fun i h'' hp => aMatAt_ref (hv.mono hp) i 0) fun y z h'' _ _ hy => ?_
    exact Ref.bind (aConcretizeVec_ref hy) fun y z h'' _ _ hy => Ref.pure hy.ev

/-! ## AsSimplifiedExpression -/

theorem aVecSimplified_ref {a : AVec R} {x : Vec R} {h : Heap R} (ha : Rep lo LV h.exps a x) :
    Ref lo LV (aVecSimplified a) h x.asSimplified := by
  cases a with
  | k l => rw [ha.vk_inv]; exact Ref.pure Rep.vk
  | v l => rw [ha.vv_inv]; exact Ref.pure Rep.vv
  | m l =>
    obtain ⟨ms, rfl, hm⟩ := ha.vm_inv
    refine vVal_bind ha fun _ _ => ?_
    exact Ref.bind (Ref.traverse l hm fun a x h' _ ha => hMonoSimplified_ref ha) fun ps z h' _ _ hps =>
      aConcretizeVec_ref hps
  | p l =>
    obtain ⟨ms, rfl, hm⟩ := ha.vp_inv
    refine vVal_bind ha fun _ _ => ?_
    exact Ref.bind (Ref.traverse l hm fun a x h' _ ha => hPolySimplified_ref ha) fun ps z h' _ _ hps =>
      aConcretizeVec_ref hps

theorem aMatSimplified_ref {a : AMat R} {x : Mat R} {h : Heap R} (ha : Rep lo LMt h.exps a x) :
    Ref lo LMt (aMatSimplified a) h x.asSimplified := by
  cases a with
  | k l => rw [ha.matk_inv]; exact Ref.pure Rep.matk
  | v l => rw [ha.matv_inv]; exact Ref.pure Rep.matv
  | m l =>
    obtain ⟨ms, rfl, hm⟩ := ha.matm_inv
    refine mVal_bind ha fun _ _ => ?_
    exact Ref.bind (Ref.traverse2 l hm fun a x h' _ ha => hMonoSimplified_ref ha) fun ps z h' _ _ hps =>
      aConcretizeMat_ref hps
  | p l =>
    obtain ⟨ms, rfl, hm⟩ := ha.matp_inv
    refine mVal_bind ha fun _ _ => ?_
    exact Ref.bind (Ref.traverse2 l hm fun a x h' _ ha => hPolySimplified_ref ha) fun ps z h' _ _ hps =>
      aConcretizeMat_ref hps

theorem aSimplified_ref {a : AExpr R} {x : Expr R} {h : Heap R} (ha : Rep lo LE h.exps a x) :
    Ref lo LE (aSimplified a) h x.asSimplified := by
  cases a with
  | s e =>
    obtain ⟨s, rfl, he⟩ := ha.es_inv
    exact Ref.bind (hSimplified_ref he) fun y z h' _ _ hy => Ref.pure hy.es
  | v e =>
    obtain ⟨s, rfl, he⟩ := ha.ev_inv
    exact Ref.bind (aVecSimplified_ref he) fun y z h' _ _ hy => Ref.pure hy.ev
  | m e =>
    obtain ⟨s, rfl, he⟩ := ha.em_inv
    exact Ref.bind (aMatSimplified_ref he) fun y z h' _ _ hy => Ref.pure hy.em

end Verif
