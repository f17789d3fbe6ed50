import Verif.Model.Bunch

/-! Loops over a row-major array -/

namespace Teufel

theorem rowmajor_inj {D i j k l : Nat} (hk : k < D) (hl : l < D) (h : i * D + k = j * D + l) : i = j ∧ k = l := by
  have h1 : (i * D + k) / D = i := by
    rw [Nat.mul_comm, Nat.mul_add_div (by omega), Nat.div_eq_of_lt hk, Nat.add_zero]
  have h2 : (j * D + l) / D = j := by
    rw [Nat.mul_comm, Nat.mul_add_div (by omega), Nat.div_eq_of_lt hl, Nat.add_zero]
  have e : i = j := by rw [← h1, ← h2, h]
  subst e
  exact ⟨rfl, by omega⟩

theorem rowmajor_lt {D N i k : Nat} (hi : i < N) (hk : k < D) : i * D + k < D * N := by
  have : (i + 1) * D ≤ N * D := Nat.mul_le_mul_right D hi
  nlinarith

theorem updateAt_ok {α} {l : List α} {i : Nat} (h : i < l.length) (f : α → α) :
    updateAt l i f = .ok (l.set i (f l[i])) := by
  simp [updateAt, List.getElem?_eq_getElem h]

/-- a loop over the rows, modifying one column, using anything but this column -/
theorem column_loop {D N k : Nat} (hk : k < D) (h : List ℝ → Nat → ℝ → ℝ) (body : List ℝ → Nat → Except Err (List ℝ))
    (A : List ℝ) (hA : A.length = D * N)
    (hh : ∀ A' : List ℝ, A'.length = D * N → (∀ i l, i < N → l < D → l ≠ k → A'[i * D + l]? = A[i * D + l]?) → ∀ i < N, h A' i = h A i)
    (hb : ∀ A' : List ℝ, A'.length = D * N → ∀ i < N, body A' i = updateAt A' (i * D + k) (h A' i)) :
    ∀ n ≤ N, ∃ A', (List.range n).foldlM body A = .ok A' ∧ A'.length = D * N ∧
      ∀ i l, i < N → l < D → A'[i * D + l]? = if i < n ∧ l = k then (A[i * D + l]?).map (h A i) else A[i * D + l]? := by
  intro n
  induction n with
  | zero => intro _; exact ⟨A, rfl, hA, fun i l _ _ => by simp⟩
  | succ n ih =>
    intro hn
    obtain ⟨A1, h1, h2, h3⟩ := ih (by omega)
    have hlt : n * D + k < A1.length := by rw [h2]; exact rowmajor_lt (by omega) hk
    refine ⟨A1.set (n * D + k) (h A1 n A1[n * D + k]), ?_, by simp [h2], ?_⟩
    · rw [List.range_succ, List.foldlM_append, h1]
      show (List.foldlM body A1 [n]) = _
      rw [List.foldlM_cons]
      rw [hb A1 h2 n (by omega), updateAt_ok hlt]
      rfl
    · intro i l hi hl
      have hA1 : h A1 n = h A n := hh A1 h2 (fun i l hi hl hne => by rw [h3 i l hi hl, if_neg (by tauto)]) n (by omega)
      rw [List.getElem?_set]
      by_cases e : n * D + k = i * D + l
      · obtain ⟨rfl, rfl⟩ := rowmajor_inj hk hl e
        rw [if_pos rfl, if_pos hlt, if_pos ⟨by omega, rfl⟩, hA1]
        have := h3 n k hi hl
        rw [if_neg (by omega)] at this
        rw [← this, List.getElem?_eq_getElem hlt]
        rfl
      · rw [if_neg e, h3 i l hi hl]
        by_cases c : i < n ∧ l = k
        · rw [if_pos c, if_pos ⟨by omega, c.2⟩]
        · rw [if_neg c, if_neg]
          rintro ⟨c1, rfl⟩
          have : i = n := by
            by_contra hne
            exact c ⟨by omega, rfl⟩
          subst this
          exact e rfl

end Teufel
