import Verif.Model.Retarded
import Verif.Lemmas.VayRun

namespace Teufel
open Vec
namespace Particle

theorem bisect_spec (early : Nat → Except Err Bool) (e : Nat → Bool) (i1 i2 : Nat) (hlt : i1 < i2)
    (h : ∀ i, i1 < i → i < i2 → early i = .ok (e i)) :
    ∃ j, bisect early i1 i2 = .ok (j, j + 1) ∧ i1 ≤ j ∧ j + 1 ≤ i2 ∧ (j = i1 ∨ e j = true) ∧ (j + 1 = i2 ∨ e (j + 1) = false) := by
  induction hn : i2 - i1 using Nat.strong_induction_on generalizing i1 i2 with
  | _ n ih =>
    rw [bisect]
    by_cases h1 : i2 - i1 > 1
    · rw [if_pos h1, h ((i2 + i1) / 2) (by omega) (by omega)]
      cases hb : e ((i2 + i1) / 2) with
      | true =>
        simp only
        obtain ⟨j, a, b, c, d, f⟩ := ih (i2 - (i2 + i1) / 2) (by omega) ((i2 + i1) / 2) i2 (by omega)
          (fun i hi1 hi2 => h i (by omega) hi2) rfl
        refine ⟨j, a, by omega, c, ?_, f⟩
        rcases d with d | d
        · right; rw [d]; exact hb
        · right; exact d
      | false =>
        simp only
        obtain ⟨j, a, b, c, d, f⟩ := ih ((i2 + i1) / 2 - i1) (by omega) i1 ((i2 + i1) / 2) (by omega)
          (fun i hi1 hi2 => h i hi1 (by omega)) rfl
        refine ⟨j, a, b, by omega, d, ?_⟩
        rcases f with f | f
        · right; rw [f]; exact hb
        · right; exact f
    · rw [if_neg h1]
      have : i2 = i1 + 1 := by omega
      subst this
      exact ⟨i1, rfl, le_refl _, le_refl _, Or.inl rfl, Or.inl rfl⟩

theorem bisect_self (early : Nat → Except Err Bool) (i : Nat) : bisect early i i = .ok (i, i) := by
  rw [bisect, if_neg (by omega)]

theorem vecAt_ok {α} {l : List α} {i : Nat} (h : i < l.length) : vecAt l i = .ok l[i] := by
  simp [vecAt, List.getElem?_eq_getElem h]

theorem vecAt_of_get {α} {l : List α} {i : Nat} {a : α} (h : l[i]? = some a) : vecAt l i = .ok a := by
  simp [vecAt, h]

end Particle
end Teufel
