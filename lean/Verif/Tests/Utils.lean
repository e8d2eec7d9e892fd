import Verif.Tests.Base

/-!
# `/repo/testing/symbolic/utils_test.go` on the model
-/

namespace Verif.Tests.Utils

/-- Its bounds are in the wrong order. -/
def bad : Var ℚ := ⟨2, -1, -2, 66, "Russ", 0⟩

/-- FindInSlice1 -/
example : gives (-1, false) (findInSlice (.str "x" : Elem ℚ) (.strs ["a", "b", "c"])) := by
  decide +kernel
/-- FindInSlice2 -/
example : gives (3, false) (findInSlice (.str "x" : Elem ℚ) (.strs ["a", "b", "c", "x"])) := by
  decide +kernel
/-- FindInSlice3 -/
example : gives (-1, false) (findInSlice (.int 1 : Elem ℚ) (.ints [2, 3, 4])) := by decide +kernel
/-- FindInSlice4 -/
example : gives (3, false) (findInSlice (.int 1 : Elem ℚ) (.ints [2, 3, 4, 1])) := by decide +kernel
/-- FindInSlice5 -/
example : gives (-1, false) (findInSlice (.u64 1 : Elem ℚ) (.u64s [2, 3, 4])) := by decide +kernel
/-- FindInSlice6 -/
example : gives (3, false) (findInSlice (.u64 1 : Elem ℚ) (.u64s [2, 3, 4, 1])) := by decide +kernel
/-- FindInSlice7 -/
example : gives (-1, false) (findInSlice (.var (nv 0)) (.vars (nvs 1 3))) := by decide +kernel
/-- FindInSlice8 -/
example : gives (3, false) (findInSlice (.var (nv 0)) (.vars (nvs 1 3 ++ [nv 0]))) := by
  decide +kernel
/-- FindInSlice9 -/
example : returns (fun r => r.2) (findInSlice (.int 1 : Elem ℚ) .other) := by decide +kernel
/-- FindInSlice10 -/
example : returns (fun r => r.2) (findInSlice (.str "x" : Elem ℚ) (.ints [2, 3, 4, 1])) := by
  decide +kernel
/-- FindInSlice11 -/
example : returns (fun r => r.2) (findInSlice (.var (nv 0)) (.ints [2, 3, 4, 1])) := by
  decide +kernel
/-- FindInSlice12 -/
example : returns (fun r => r.2) (findInSlice (.other : Elem ℚ) (.ints [2, 3, 4, 1])) := by
  decide +kernel
/-- Unique1 -/
example : (uniqueIds []).length = 0 := by decide +kernel
/-- Unique2 -/
example : (uniqueIds [13, 13, 13, 13]).length = 1 := by decide +kernel
/-- Unique3 -/
example : (uniqueIds [13]).length = 1 := by decide +kernel
/-- Unique4 -/
example : (uniqueIds [13, 14, 15]).length = 3 := by decide +kernel
/-- CheckSubstitutionMap1 -/
example : panicsWith .check (checkESubMap [(nv 0, sk 3), (bad, sk 4)]) := by decide +kernel
/-- CheckSubstitutionMap2 -/
example : panicsWith .check (checkESubMap [(nv 1, sk 3), (nv 0, sv bad)]) := by decide +kernel
/-- CheckSubstitutionMap3 -/
example : panicsWith .check (checkESubMap [(nv 5, sk 3), (nv 0, mv (nvm 1 2 2))]) := by
  decide +kernel
/-- CheckSubstitutionMap4 -/
example : ok (checkESubMap [(nv 0, sk 3), (nv 1, sk 4)]) := by decide +kernel

end Verif.Tests.Utils
