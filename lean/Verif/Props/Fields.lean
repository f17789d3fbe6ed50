import Verif.Lemmas.Vec
import Verif.Model.Fields
import Mathlib.Data.List.Perm.Basic

/-! # C22, C23: lattice superposition and placement of localized fields -/

namespace Teufel

open Vec

/-! ## helper: evaluation of the fold -/

theorem lattice_fold_ok (L : List GeneralField) (t : ℝ) (X : Vec) (g : GeneralField → EMField)
    (h : ∀ e ∈ L, e.field t X = .ok (g e)) (a : EMField) :
    L.foldlM (m := Except Err) (fun total e => (e.field t X).map (fun f => total + f)) a = .ok (a + (L.map g).sum) := by
  induction L generalizing a with
  | nil => simp [pure, Except.pure]
  | cons e L ih =>
    simp only [List.foldlM_cons, List.map_cons, List.sum_cons]
    rw [h e (by simp)]
    have := ih (fun e he => h e (by simp [he])) (a + g e)
    rw [add_assoc] at this
    exact this

theorem lattice_fold_ok_inv (L : List GeneralField) (t : ℝ) (X : Vec) (a r : EMField)
    (h : L.foldlM (m := Except Err) (fun total e => (e.field t X).map (fun f => total + f)) a = .ok r) :
    ∀ e ∈ L, ∃ f, e.field t X = .ok f := by
  induction L generalizing a with
  | nil => simp
  | cons e L ih =>
    simp only [List.foldlM_cons, bind, Except.bind] at h
    cases he : e.field t X with
    | error x => rw [he] at h; simp [Except.map] at h
    | ok f =>
      rw [he] at h; simp only [Except.map] at h
      intro e' he'
      rcases List.mem_cons.mp he' with rfl | hm
      · exact ⟨f, he⟩
      · exact ih _ h e' hm

/-- C22: the field of the lattice is the sum of the fields of its elements. -/
theorem C22_superposition (L : Lattice) (t : ℝ) (X : Vec) (g : GeneralField → EMField)
    (h : ∀ e ∈ L, e.field t X = .ok (g e)) :
    L.field t X = .ok ((L.map g).sum) := by
  rw [Lattice.field, lattice_fold_ok L t X g h, zero_add]

/-- C22: field evaluation of the lattice fails exactly when one of the elements fails. -/
theorem C22_fails_iff (L : Lattice) (t : ℝ) (X : Vec) :
    (∃ f, L.field t X = .ok f) ↔ ∀ e ∈ L, ∃ f, e.field t X = .ok f := by
  constructor
  · rintro ⟨f, hf⟩; exact lattice_fold_ok_inv L t X _ _ hf
  · intro h
    classical
    refine ⟨_, C22_superposition L t X (fun e => match e.field t X with | .ok f => f | .error _ => 0) ?_⟩
    intro e he
    obtain ⟨f, hf⟩ := h e he
    rw [hf]

/-- C22: the order in which the elements were added does not matter. -/
theorem C22_order_independent (L L' : Lattice) (hp : L.Perm L') (t : ℝ) (X : Vec)
    (h : ∀ e ∈ L, ∃ f, e.field t X = .ok f) :
    L.field t X = L'.field t X := by
  have h1 := C22_superposition L t X (fun e => match e.field t X with | .ok f => f | .error _ => 0)
    (by intro e he; obtain ⟨f, hf⟩ := h e he; rw [hf])
  have h2 := C22_superposition L' t X (fun e => match e.field t X with | .ok f => f | .error _ => 0)
    (by intro e he; obtain ⟨f, hf⟩ := h e (hp.mem_iff.mpr he); rw [hf])
  rw [h1, h2, (hp.map _).sum_eq]

/-- C22: adding an element adds its field. -/
theorem C22_add_field (L : Lattice) (e : GeneralField) (t : ℝ) (X : Vec) (f g : EMField)
    (hL : L.field t X = .ok f) (he : e.field t X = .ok g) :
    (L.addElement e).field t X = .ok (f + g) := by
  rw [Lattice.field] at hL
  rw [Lattice.field, Lattice.addElement, List.foldlM_append, hL]
  simp [bind, Except.bind, he, Except.map, pure, Except.pure]

/-- operations of the public interface of the lattice -/
inductive LatticeOp
  | add (e : GeneralField)
  | remove (i : Int)

/-- execution of an operation; an exception leaves the lattice unchanged -/
def LatticeOp.exec (L : Lattice) : LatticeOp → Lattice
  | .add e => L.addElement e
  | .remove i => match L.remove i with | .ok L' => L' | .error _ => L

/-- the specification: what the same operation does to an ordinary list -/
def LatticeOp.spec (l : List GeneralField) : LatticeOp → List GeneralField
  | .add e => l ++ [e]
  | .remove i => if 0 ≤ i ∧ i < l.length then l.take i.toNat ++ l.drop (i.toNat + 1) else l

/-- C22: after every history of add and remove the lattice holds exactly the elements, in order, that
a list would hold; `count` is the length; `at` succeeds exactly for 0 ≤ i < count and returns the
i-th element, `remove` succeeds for the same indices, and both raise IOexception otherwise. -/
theorem C22_history (ops : List LatticeOp) (L : Lattice)
    (hL : L = ops.foldl LatticeOp.exec []) :
    L = ops.foldl LatticeOp.spec [] ∧
    L.count = (ops.foldl LatticeOp.spec []).length ∧
    (∀ i : Int, (h : 0 ≤ i ∧ i < L.count) →
        L.elemAt i = .ok (L[i.toNat]'(by have := h.2; simp [Lattice.count] at this; omega)) ∧
        L.remove i = .ok (L.take i.toNat ++ L.drop (i.toNat + 1))) ∧
    (∀ i : Int, ¬ (0 ≤ i ∧ i < L.count) → L.elemAt i = .error .io ∧ L.remove i = .error .io) := by
  have key : ∀ l : List GeneralField, ∀ o, LatticeOp.exec l o = LatticeOp.spec l o := by
    intro l o
    cases o with
    | add e => rfl
    | remove i =>
      simp only [LatticeOp.exec, LatticeOp.spec, Lattice.remove]
      by_cases h1 : i < 0
      · rw [if_pos h1, if_neg (by omega)]
      · by_cases h2 : i ≥ (l.length : Int)
        · rw [if_neg h1, if_pos h2, if_neg (by omega)]
        · rw [if_neg h1, if_neg h2, if_pos (by omega)]
          simp [List.eraseIdx_eq_take_drop_succ]
  have e1 : L = ops.foldl LatticeOp.spec [] := by
    rw [hL]; congr 1; funext l o; exact key l o
  refine ⟨e1, ?_, ?_, ?_⟩
  · simp only [Lattice.count]; exact_mod_cast congrArg List.length e1
  · intro i h
    have hi2 : i < (L.length : Int) := h.2
    refine ⟨?_, ?_⟩
    · simp only [Lattice.elemAt]
      rw [if_neg (by omega), if_neg (by omega)]
      rw [List.getElem?_eq_getElem (by omega)]
    · simp only [Lattice.remove]
      rw [if_neg (by omega), if_neg (by omega), List.eraseIdx_eq_take_drop_succ]
  · intro i h
    have hh : i < 0 ∨ i ≥ (L.length : Int) := by
      simp only [Lattice.count] at h; omega
    constructor
    · simp only [Lattice.elemAt]
      rcases hh with h | h
      · rw [if_pos h]
      · by_cases h0 : i < 0
        · rw [if_pos h0]
        · rw [if_neg h0, if_pos h]
    · simp only [Lattice.remove]
      rcases hh with h | h
      · rw [if_pos h]
      · by_cases h0 : i < 0
        · rw [if_pos h0]
        · rw [if_neg h0, if_pos h]

/-- C23: placing an element at (t0,X0) only translates its field. -/
theorem C23_translation (localField : FieldFn) (t0 s : ℝ) (X0 Y : Vec) (t : ℝ) (X : Vec) :
    (LocalizedField localField t0 X0).field t X
      = (LocalizedField localField s Y).field (t - t0 + s) (X - X0 + Y) := by
  simp only [LocalizedField]
  congr 1
  · ring
  · ext <;> simp

/-- C23: an element placed at the origin at time zero has its local field, and a placed element sees
its own origin (t0,X0) as local (0,0). -/
theorem C23_origin (localField : FieldFn) (t0 : ℝ) (X0 : Vec) (t : ℝ) (X : Vec) :
    (LocalizedField localField 0 0).field t X = localField t X ∧
    (LocalizedField localField t0 X0).field t0 X0 = localField 0 0 := by
  simp only [LocalizedField]
  constructor
  · congr 1
    · ring
    · ext <;> simp
  · congr 1
    · ring
    · ext <;> simp

/-- non-vacuity: a lattice of two homogeneous fields evaluates without exception -/
example : Lattice.field [HomogeneousField ⟨1,0,0⟩ 0, HomogeneousField ⟨0,2,0⟩ ⟨0,0,3⟩] 0 0
    = .ok ⟨⟨1,2,0⟩, ⟨0,0,3⟩⟩ := by
  rw [C22_superposition _ _ _ (fun e => match e.field 0 0 with | .ok f => f | .error _ => 0)
    (by intro e he; simp only [List.mem_cons, List.not_mem_nil, or_false] at he
        rcases he with rfl | rfl <;> rfl)]
  simp only [HomogeneousField, List.map_cons, List.map_nil, List.sum_cons, List.sum_nil]
  congr 1
  ext <;> simp

/-- non-vacuity of the history theorem: add, add, remove the first, remove a bad index -/
example : ([LatticeOp.add (HomogeneousField 0 0), .add (HomogeneousField ⟨1,0,0⟩ 0), .remove 0, .remove 7].foldl
    LatticeOp.exec []) = [HomogeneousField ⟨1,0,0⟩ 0] := by
  simp [LatticeOp.exec, Lattice.addElement, Lattice.remove]

end Teufel
