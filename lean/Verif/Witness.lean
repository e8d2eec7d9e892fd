import Verif.Spec

/-!
# Concrete variables and expressions over `ℚ`, used by the `example`s and the counterexamples
-/

namespace Verif

/-- The `i`-th variable of environment `0`, with bounds `[0, 1]`. -/
def wv (i : Nat) : Var ℚ := ⟨i, 0, 1, 0, "x", 0⟩

abbrev wx : Var ℚ := wv 0
abbrev wy : Var ℚ := wv 1
abbrev wz : Var ℚ := wv 2

theorem wv_ok (i : Nat) : (wv i).OK := by
  show decide ((1 : ℚ) ≤ 0) = false
  simp

/-- `c * x_i^e` -/
def wm1 (c : ℚ) (i : Nat) (e : Int) : Mono ℚ := ⟨c, [e], [wv i]⟩

/-- `c * x_i^e * x_j^f` -/
def wm2 (c : ℚ) (i j : Nat) (e f : Int) : Mono ℚ := ⟨c, [e, f], [wv i, wv j]⟩

/-- The constant term `c` -/
def wm0 (c : ℚ) : Mono ℚ := ⟨c, [], []⟩

theorem wm0_canon (c : ℚ) : (wm0 c).Canon :=
  ⟨rfl, by simp [wm0], by simp [wm0], by simp [wm0]⟩

theorem wm1_canon (c : ℚ) (i : Nat) {e : Int} (he : 0 < e) : (wm1 c i e).Canon :=
  ⟨rfl, by simpa [wm1] using he, by simp [wm1], by simpa [wm1] using wv_ok i⟩

theorem wm2_canon (c : ℚ) {i j : Nat} (h : i ≠ j) {e f : Int} (he : 0 < e) (hf : 0 < f) :
    (wm2 c i j e f).Canon :=
  ⟨rfl, by simpa [wm2] using ⟨he, hf⟩, by simpa [wm2, wv] using h, by
    simpa [wm2] using ⟨wv_ok i, wv_ok j⟩⟩

theorem wm0_degs (c : ℚ) : (wm0 c).degs = 0 := rfl

theorem wm1_degs (c : ℚ) (i : Nat) (e : Int) : (wm1 c i e).degs = Finsupp.single i e.toNat := by
  simp [wm1, Mono.degs, wv]

theorem wm2_degs (c : ℚ) (i j : Nat) (e f : Int) :
    (wm2 c i j e f).degs = Finsupp.single i e.toNat + Finsupp.single j f.toNat := by
  simp [wm2, Mono.degs, wv]

end Verif
