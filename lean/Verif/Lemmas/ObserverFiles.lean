import Verif.Spec.ObserverFiles
import Verif.Lemmas.Observe

/-! # Row-major arrays -/

namespace Teufel
open Vec

theorem flatMap_get {α β : Type} (l : List α) (f : α → List β) (k : Nat) (hk : ∀ a ∈ l, (f a).length = k) (i : Nat) (a : α) (h : l[i]? = some a)
    (c : Nat) (hc : c < k) : (l.flatMap f)[i * k + c]? = (f a)[c]? := by
  induction l generalizing i with
  | nil => simp at h
  | cons b l ih =>
    have hb : (f b).length = k := hk b (by simp)
    rw [List.flatMap_cons]
    cases i with
    | zero =>
      simp only [List.getElem?_cons_zero, Option.some.injEq] at h
      subst h
      rw [List.getElem?_append_left (by omega)]
      simp
    | succ i =>
      rw [List.getElem?_append_right (by rw [hb]; nlinarith), hb]
      have e : (i + 1) * k + c - k = i * k + c := by
        have : (i + 1) * k = i * k + k := by ring
        omega
      rw [e]
      exact ih (fun a ha => hk a (by simp [ha])) i (by simpa using h)

theorem flatMap_len {α β : Type} (l : List α) (f : α → List β) (k : Nat) (hk : ∀ a ∈ l, (f a).length = k) : (l.flatMap f).length = l.length * k := by
  induction l with
  | nil => simp
  | cons b l ih =>
    rw [List.flatMap_cons, List.length_append, hk b (by simp), ih (fun a ha => hk a (by simp [ha])), List.length_cons]
    ring

theorem cells_get {Nx Ny ix iy : Nat} (hx : ix < Nx) (hy : iy < Ny) : (cells Nx Ny)[ix * Ny + iy]? = some (ix, iy) := by
  unfold cells
  rw [flatMap_get _ _ Ny (fun a _ => by simp) ix ix (by simp [hx]) iy hy]
  simp [hy]

theorem samples_get {s : Screen} {ix iy it : Nat} (hx : ix < s.Nx) (hy : iy < s.Ny) (ht : it < s.NOTS) :
    s.samples[(ix * s.Ny + iy) * s.NOTS + it]? = some ((ix, iy), it) := by
  unfold Screen.samples
  rw [flatMap_get _ _ s.NOTS (fun a _ => by simp) (ix * s.Ny + iy) (ix, iy) (cells_get hx hy) it ht]
  simp [ht]

theorem rowMajor2 (a b i j : Nat) (hi : i < a) (hj : j < b) : rowMajor [a, b] [i, j] = some (i * b + j) := by
  simp [rowMajor, hi, hj]

theorem rowMajor3 (a b c i j k : Nat) (hi : i < a) (hj : j < b) (hk : k < c) : rowMajor [a, b, c] [i, j, k] = some ((i * b + j) * c + k) := by
  simp [rowMajor, hi, hj, hk]
  ring

theorem rowMajor4 (a b c d i j k l : Nat) (hi : i < a) (hj : j < b) (hk : k < c) (hl : l < d) :
    rowMajor [a, b, c, d] [i, j, k, l] = some (((i * b + j) * c + k) * d + l) := by
  simp [rowMajor, hi, hj, hk, hl]
  ring

theorem h5write_exact (name : String) (dims : List Nat) (buf : List ℝ) (ints : List (String × Nat)) (reals : List (String × ℝ)) (h : buf.length = dims.prod) :
    h5write name dims buf ints reals = .ok ⟨name, dims, buf, ints, reals⟩ := by
  unfold h5write
  rw [if_neg (by omega), List.take_of_length_le (by omega)]

theorem fill_short (size : Nat) (vals : List ℝ) (h : size < vals.length) : fillBuffer size vals = .error .ub := by
  unfold fillBuffer intoBuffer
  rw [if_neg (by omega)]

theorem comps_get (F : EMField) : F.comps[0]? = some F.E.x ∧ F.comps[1]? = some F.E.y ∧ F.comps[2]? = some F.E.z ∧ F.comps[3]? = some F.B.x ∧
    F.comps[4]? = some F.B.y ∧ F.comps[5]? = some F.B.z := ⟨rfl, rfl, rfl, rfl, rfl, rfl⟩

/-- a dataset of fields -/
theorem field_of_index {α : Type} {f : H5File} {name : String} {d : H5Dataset} (hd : f.dataset name = some d) {idx : List Nat} {k : Nat}
    (hr : ∀ c < 6, rowMajor d.dims (idx ++ [c]) = some (k * 6 + c)) {l : List α} {g : α → EMField} {a : α} (hl : l[k]? = some a)
    (hdata : d.data = (l.map g).flatMap EMField.comps) : f.field name idx (g a) := by
  have key : ∀ c < 6, f.entry name (idx ++ [c]) = (g a).comps[c]? := by
    intro c hc
    unfold H5File.entry
    rw [hd]
    simp only [hr c hc, Option.bind_some, hdata]
    exact flatMap_get _ EMField.comps 6 (fun F _ => rfl) k (g a) (by rw [List.getElem?_map, hl]; rfl) c hc
  exact ⟨key 0 (by omega), key 1 (by omega), key 2 (by omega), key 3 (by omega), key 4 (by omega), key 5 (by omega)⟩

/-- a dataset of vectors -/
theorem vec_of_index {α : Type} {f : H5File} {name : String} {d : H5Dataset} (hd : f.dataset name = some d) {idx : List Nat} {k : Nat}
    (hr : ∀ c < 3, rowMajor d.dims (idx ++ [c]) = some (k * 3 + c)) {l : List α} {g : α → Vec} {a : α} (hl : l[k]? = some a)
    (hdata : d.data = l.flatMap (fun a => Particle.comps (g a))) : f.vec name idx (g a) := by
  have key : ∀ c < 3, f.entry name (idx ++ [c]) = (Particle.comps (g a))[c]? := by
    intro c hc
    unfold H5File.entry
    rw [hd]
    simp only [hr c hc, Option.bind_some, hdata]
    exact flatMap_get _ (fun a => Particle.comps (g a)) 3 (fun F _ => rfl) k a hl c hc
  exact ⟨key 0 (by omega), key 1 (by omega), key 2 (by omega)⟩

end Teufel
