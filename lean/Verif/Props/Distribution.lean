import Verif.Lemmas.Distribution

/-! # C29, C30 (distributions): access, buffers, subsets, correlations -/

namespace Teufel
open Distribution

/-- every distribution a program can hold -/
inductive Distribution.Reachable : Distribution → Prop
  | new (rnd : Nat → ℝ) (dim nop : Nat) : Reachable (.new rnd dim nop)
  | sub {d d' : Distribution} (rnd : Nat → ℝ) (index : Int) (n : Nat) : Reachable d → d.subDist rnd index n = .ok d' → Reachable d'
  | scale {d d' : Distribution} (dim : Int) (f : ℝ) : Reachable d → d.scale dim f = .ok d' → Reachable d'
  | gauss {d d' : Distribution} (rnd : Nat → ℝ) (dim : Int) : Reachable d → d.generateGaussian rnd dim = .ok d' → Reachable d'
  | corr {d d' : Distribution} (i j : Int) (f : ℝ) : Reachable d → d.addCorrelation i j f = .ok d' → Reachable d'
  | set {d d' : Distribution} (i j : Int) (v : ℝ) : Reachable d → d.setCoordinate i j v = .ok d' → Reachable d'
  | buf {d d' : Distribution} (b : List ℝ) (n : Int) : Reachable d → d.fromBuffer b n = .ok d' → Reachable d'

/-- the invariant: the array has `DIM*NOP` entries -/
def Distribution.Sized (d : Distribution) : Prop := d.A.length = d.DIM * d.NOP

/-- the index addresses a coordinate of the distribution -/
def Distribution.Valid (d : Distribution) (index dim : Int) : Prop :=
  0 ≤ index ∧ index < d.NOP ∧ 0 ≤ dim ∧ dim < d.DIM

instance (d : Distribution) (i k : Int) : Decidable (d.Valid i k) := by unfold Distribution.Valid; infer_instance

theorem get_nat {d : Distribution} (i k : Nat) (hi : i < d.NOP) (hk : k < d.DIM) {v : ℝ}
    (h : d.A[i * d.DIM + k]? = some v) : d.getCoordinate i k = .ok v := by
  unfold getCoordinate
  rw [if_pos (by omega)]
  simp [Particle.vecAt, h]

theorem get_sized {d : Distribution} (h : d.Sized) (index dim : Int) (hv : d.Valid index dim) :
    ∃ v, d.getCoordinate index dim = .ok v ∧ d.A[index.toNat * d.DIM + dim.toNat]? = some v := by
  obtain ⟨h1, h2, h3, h4⟩ := hv
  have hlt : index.toNat * d.DIM + dim.toNat < d.A.length := by rw [h]; exact rowmajor_lt (by omega) (by omega)
  refine ⟨d.A[index.toNat * d.DIM + dim.toNat], ?_, List.getElem?_eq_getElem hlt⟩
  unfold getCoordinate
  rw [if_pos ⟨by omega, by omega, by omega, by omega⟩]
  simp [Particle.vecAt, List.getElem?_eq_getElem hlt]

theorem get_invalid {d : Distribution} (index dim : Int) (hv : ¬ d.Valid index dim) : d.getCoordinate index dim = .ok 0 := by
  unfold getCoordinate
  rw [if_neg]
  rintro ⟨a, b, c, e⟩
  exact hv ⟨c, e, a, b⟩

/-- two sized distributions of the same shape: coordinates determined by the array -/
theorem get_congr {d d' : Distribution} (hs : d.Sized) (hs' : d'.Sized) (hD : d'.DIM = d.DIM) (hN : d'.NOP = d.NOP)
    {index dim : Int} {f : ℝ → ℝ} (hv : d.Valid index dim) {v : ℝ} (hg : d.getCoordinate index dim = .ok v)
    (h : d'.A[index.toNat * d.DIM + dim.toNat]? = (d.A[index.toNat * d.DIM + dim.toNat]?).map f) :
    d'.getCoordinate index dim = .ok (f v) := by
  obtain ⟨w, h1, h2⟩ := get_sized hs _ _ hv
  obtain ⟨w', h1', h2'⟩ := get_sized hs' index dim (by unfold Valid at *; rw [hD, hN]; exact hv)
  rw [hD, h, h2] at h2'
  simp only [Option.map_some, Option.some.injEq] at h2'
  rw [hg] at h1
  injection h1 with h1
  rw [h1', ← h2', h1]

theorem scale_spec {d : Distribution} (h : d.Sized) (dim : Int) (f : ℝ) :
    ∃ d', d.scale dim f = .ok d' ∧ d'.Sized ∧ d'.DIM = d.DIM ∧ d'.NOP = d.NOP ∧
      ∀ i k v, d.getCoordinate i k = .ok v → d'.getCoordinate i k = .ok (if k = dim ∧ d.Valid i k then v * f else v) := by
  unfold scale
  by_cases hd : dim ≥ 0 ∧ dim < d.DIM
  · rw [if_pos hd]
    obtain ⟨A', h1, h2, h3⟩ := column_loop (D := d.DIM) (N := d.NOP) (k := dim.toNat) (by omega)
      (fun _ _ => (· * f)) (fun (A : List ℝ) (i : Nat) => updateAt A (i * d.DIM + dim.toNat) (· * f)) d.A h
      (fun _ _ _ _ _ => rfl) (fun _ _ _ _ => rfl) d.NOP le_rfl
    refine ⟨{ d with A := A' }, by simp only [scaleLoop, h1]; rfl, h2, rfl, rfl, ?_⟩
    intro i k v hg
    by_cases hv : d.Valid i k
    · have h3' := h3 i.toNat k.toNat (by unfold Valid at hv; omega) (by unfold Valid at hv; omega)
      by_cases hk : k = dim
      · rw [if_pos ⟨hk, hv⟩]
        refine get_congr (d' := { d with A := A' }) (f := (· * f)) h h2 rfl rfl hv hg ?_
        show A'[_]? = _
        rw [h3', if_pos ⟨by unfold Valid at hv; omega, by rw [hk]⟩]
      · rw [if_neg (by tauto)]
        refine get_congr (d' := { d with A := A' }) (f := id) h h2 rfl rfl hv hg ?_
        show A'[_]? = _
        rw [h3', if_neg (by unfold Valid at hv; omega)]; simp
    · rw [if_neg (by tauto)]
      rw [get_invalid _ _ hv] at hg
      rw [get_invalid]; exact hg
      exact hv
  · rw [if_neg hd]
    refine ⟨d, rfl, h, rfl, rfl, fun i k v hg => ?_⟩
    rw [if_neg]; exact hg
    rintro ⟨rfl, hv⟩
    unfold Valid at hv
    omega

theorem gauss_spec {d : Distribution} (h : d.Sized) (rnd : Nat → ℝ) (dim : Int) :
    ∃ d', d.generateGaussian rnd dim = .ok d' ∧ d'.Sized ∧ d'.DIM = d.DIM ∧ d'.NOP = d.NOP ∧
      ∀ i k v, d.getCoordinate i k = .ok v → d'.getCoordinate i k = .ok (if k = dim ∧ d.Valid i k then rnd i.toNat else v) := by
  unfold generateGaussian
  by_cases hd : dim ≥ 0 ∧ dim < d.DIM
  · rw [if_pos hd]
    obtain ⟨A', h1, h2, h3⟩ := column_loop (D := d.DIM) (N := d.NOP) (k := dim.toNat) (by omega)
      (fun _ i _ => rnd i) (fun (A : List ℝ) (i : Nat) => updateAt A (i * d.DIM + dim.toNat) (fun _ => rnd i)) d.A h
      (fun _ _ _ _ _ => rfl) (fun _ _ _ _ => rfl) d.NOP le_rfl
    refine ⟨{ d with A := A' }, by simp only [h1]; rfl, h2, rfl, rfl, ?_⟩
    intro i k v hg
    by_cases hv : d.Valid i k
    · have h3' := h3 i.toNat k.toNat (by unfold Valid at hv; omega) (by unfold Valid at hv; omega)
      by_cases hk : k = dim
      · rw [if_pos ⟨hk, hv⟩]
        refine get_congr (d' := { d with A := A' }) (f := fun _ => rnd i.toNat) h h2 rfl rfl hv hg ?_
        show A'[_]? = _
        rw [h3', if_pos ⟨by unfold Valid at hv; omega, by rw [hk]⟩]
      · rw [if_neg (by tauto)]
        refine get_congr (d' := { d with A := A' }) (f := id) h h2 rfl rfl hv hg ?_
        show A'[_]? = _
        rw [h3', if_neg (by unfold Valid at hv; omega)]; simp
    · rw [if_neg (by tauto)]
      rw [get_invalid _ _ hv] at hg
      rw [get_invalid]; exact hg
      exact hv
  · rw [if_neg hd]
    refine ⟨d, rfl, h, rfl, rfl, fun i k v hg => ?_⟩
    rw [if_neg]; exact hg
    rintro ⟨rfl, hv⟩
    unfold Valid at hv
    omega

theorem corr_spec {d : Distribution} (h : d.Sized) (ind dep : Int) (f : ℝ) :
    ∃ d', d.addCorrelation ind dep f = .ok d' ∧ d'.Sized ∧ d'.DIM = d.DIM ∧ d'.NOP = d.NOP ∧
      ∀ i k v w, d.getCoordinate i k = .ok v → d.getCoordinate i ind = .ok w →
        d'.getCoordinate i k = .ok (if k = dep ∧ d.Valid i dep ∧ d.Valid i ind ∧ dep ≠ ind then v + f * w else v) := by
  unfold addCorrelation
  by_cases hd : ind ≥ 0 ∧ ind < d.DIM ∧ dep ≥ 0 ∧ dep < d.DIM ∧ dep ≠ ind
  · rw [if_pos hd]
    obtain ⟨hd1, hd2, hd3, hd4, hd5⟩ := hd
    obtain ⟨A', h1, h2, h3⟩ := column_loop (D := d.DIM) (N := d.NOP) (k := dep.toNat) (by omega)
      (fun A i => (· + f * (A[i * d.DIM + ind.toNat]?).getD 0)) (corrBody d.DIM ind.toNat dep.toNat f) d.A h
      (fun A' _ hag i hi => by
        show (fun x : ℝ => x + f * _) = (fun x : ℝ => x + f * _)
        rw [hag i ind.toNat hi (by omega) (by omega)]) (fun A' hA' i hi => by
        have hlt : i * d.DIM + ind.toNat < A'.length := by rw [hA']; exact rowmajor_lt hi (by omega)
        simp only [corrBody, Particle.vecAt, List.getElem?_eq_getElem hlt]
        rfl) d.NOP le_rfl
    refine ⟨{ d with A := A' }, by simp only [h1]; rfl, h2, rfl, rfl, ?_⟩
    intro i k v w hg hw
    by_cases hv : d.Valid i k
    · have h3' := h3 i.toNat k.toNat (by unfold Valid at hv; omega) (by unfold Valid at hv; omega)
      by_cases hk : k = dep
      · have hvi : d.Valid i ind := by unfold Valid at *; omega
        rw [if_pos ⟨hk, by rw [← hk]; exact hv, hvi, hd5⟩]
        refine get_congr (d' := { d with A := A' }) (f := (· + f * w)) h h2 rfl rfl hv hg ?_
        show A'[_]? = _
        rw [h3', if_pos ⟨by unfold Valid at hv; omega, by rw [hk]⟩]
        obtain ⟨w', e1, e2⟩ := get_sized h i ind hvi
        rw [hw] at e1
        injection e1 with e1
        rw [e2, e1]; rfl
      · rw [if_neg (by tauto)]
        refine get_congr (d' := { d with A := A' }) (f := id) h h2 rfl rfl hv hg ?_
        show A'[_]? = _
        rw [h3', if_neg (by unfold Valid at hv; omega)]; simp
    · rw [if_neg (by rintro ⟨rfl, q, -⟩; exact hv q)]
      rw [get_invalid _ _ hv] at hg
      rw [get_invalid]; exact hg
      exact hv
  · rw [if_neg hd]
    refine ⟨d, rfl, h, rfl, rfl, fun i k v w hg _ => ?_⟩
    rw [if_neg]; exact hg
    rintro ⟨rfl, hv, hv', hne⟩
    unfold Valid at hv hv'
    exact hd ⟨by omega, by omega, by omega, by omega, hne⟩

theorem set_spec {d : Distribution} (h : d.Sized) (index dim : Int) (x : ℝ) :
    ∃ d', d.setCoordinate index dim x = .ok d' ∧ d'.Sized ∧ d'.DIM = d.DIM ∧ d'.NOP = d.NOP ∧
      ∀ i k v, d.getCoordinate i k = .ok v →
        d'.getCoordinate i k = .ok (if i = index ∧ k = dim ∧ d.Valid index dim then x else v) := by
  unfold setCoordinate
  by_cases hd : dim ≥ 0 ∧ dim < d.DIM ∧ index ≥ 0 ∧ index < d.NOP
  · rw [if_pos hd]
    obtain ⟨hd1, hd2, hd3, hd4⟩ := hd
    have hlt : index.toNat * d.DIM + dim.toNat < d.A.length := by rw [h]; exact rowmajor_lt (by omega) (by omega)
    rw [updateAt_ok hlt]
    refine ⟨{ d with A := d.A.set (index.toNat * d.DIM + dim.toNat) x }, rfl, by simp [Sized]; exact h, rfl, rfl, ?_⟩
    intro i k v hg
    by_cases hv : d.Valid i k
    · by_cases hk : i = index ∧ k = dim
      · rw [if_pos ⟨hk.1, hk.2, by rw [← hk.1, ← hk.2]; exact hv⟩]
        refine get_congr (d' := { d with A := d.A.set (index.toNat * d.DIM + dim.toNat) x }) (f := fun _ => x) h (by simp [Sized]; exact h) rfl rfl hv hg ?_
        show (d.A.set _ _)[_]? = _
        rw [hk.1, hk.2, List.getElem?_set, if_pos rfl, if_pos hlt, List.getElem?_eq_getElem hlt]; rfl
      · rw [if_neg (by tauto)]
        refine get_congr (d' := { d with A := d.A.set (index.toNat * d.DIM + dim.toNat) x }) (f := id) h (by simp [Sized]; exact h) rfl rfl hv hg ?_
        show (d.A.set _ _)[_]? = _
        rw [List.getElem?_set, if_neg]; simp
        intro e
        have := rowmajor_inj (by omega) (by unfold Valid at hv; omega) e
        unfold Valid at hv
        omega
    · rw [if_neg (by rintro ⟨rfl, rfl, q⟩; exact hv q)]
      rw [get_invalid _ _ hv] at hg
      rw [get_invalid]; exact hg
      exact hv
  · rw [if_neg hd]
    refine ⟨d, rfl, h, rfl, rfl, fun i k v hg => ?_⟩
    rw [if_neg]; exact hg
    rintro ⟨rfl, rfl, hv⟩
    unfold Valid at hv
    omega

theorem get_total {d : Distribution} (h : d.Sized) (i k : Int) : ∃ v, d.getCoordinate i k = .ok v := by
  by_cases hv : d.Valid i k
  · obtain ⟨v, h1, _⟩ := get_sized h i k hv; exact ⟨v, h1⟩
  · exact ⟨0, get_invalid _ _ hv⟩

theorem sub_loop {d : Distribution} (h : d.Sized) (index : Int) (n : Nat) (l : List (Nat × Nat)) (hl : ∀ a ∈ l, a.1 < n ∧ a.2 < d.DIM) :
    ∀ s : Distribution, s.Sized → s.DIM = d.DIM → s.NOP = n →
    ∃ s', l.foldlM (d.subBody index) s = .ok s' ∧ s'.Sized ∧ s'.DIM = d.DIM ∧ s'.NOP = n ∧
      ∀ i k : Nat, i < n → k < d.DIM → s'.getCoordinate i k = if (i, k) ∈ l then d.getCoordinate (index + i) k else s.getCoordinate i k := by
  induction l with
  | nil => intro s h1 h2 h3; exact ⟨s, rfl, h1, h2, h3, fun i k _ _ => by simp⟩
  | cons a l ih =>
    intro s h1 h2 h3
    obtain ⟨v, hv⟩ := get_total h (index + a.1) a.2
    obtain ⟨s1, e1, e2, e3, e4, e5⟩ := set_spec h1 a.1 a.2 v
    obtain ⟨s', f1, f2, f3, f4, f5⟩ := ih (fun b hb => hl b (List.mem_cons_of_mem _ hb)) s1 e2 (e3.trans h2) (e4.trans h3)
    refine ⟨s', ?_, f2, f3, f4, ?_⟩
    · rw [List.foldlM_cons]
      have : d.subBody index s a = .ok s1 := by
        simp only [subBody, hv]
        exact e1
      rw [this]
      exact f1
    · intro i k hi hk
      rw [f5 i k hi hk]
      by_cases c : (i, k) ∈ l
      · rw [if_pos c, if_pos (List.mem_cons_of_mem _ c)]
      · rw [if_neg c]
        obtain ⟨w, hw⟩ := get_total h1 i k
        rw [e5 i k w hw]
        by_cases c' : (i, k) = a
        · subst c'
          rw [if_pos ⟨rfl, rfl, by unfold Valid; rw [h2, h3]; omega⟩, if_pos (by simp), hv]
        · rw [if_neg, if_neg (by simp [c, c']), hw]
          rintro ⟨q1, q2, -⟩
          exact c' (Prod.ext (by exact_mod_cast q1) (by exact_mod_cast q2))

theorem new_sized (rnd : Nat → ℝ) (dim nop : Nat) : (Distribution.new rnd dim nop).Sized := by simp [Sized, Distribution.new]

theorem sub_spec {d : Distribution} (h : d.Sized) (rnd : Nat → ℝ) (index : Int) (n : Nat) :
    ∃ s, d.subDist rnd index n = .ok s ∧ s.Sized ∧ s.DIM = d.DIM ∧ s.NOP = n ∧
      ∀ i k : Nat, i < n → k < d.DIM → s.getCoordinate i k = d.getCoordinate (index + i) k := by
  obtain ⟨s, h1, h2, h3, h4, h5⟩ := sub_loop h index n
    ((List.range n).flatMap (fun i : Nat => (List.range d.DIM).map (fun k : Nat => (i, k)))) (by
      intro a ha
      simp only [List.mem_flatMap, List.mem_range, List.mem_map] at ha
      obtain ⟨i, hi, k, hk, rfl⟩ := ha
      exact ⟨hi, hk⟩) _ (new_sized rnd d.DIM n) rfl rfl
  refine ⟨s, h1, h2, h3, h4, fun i k hi hk => ?_⟩
  rw [h5 i k hi hk, if_pos]
  simp only [List.mem_flatMap, List.mem_range, List.mem_map]
  exact ⟨i, hi, k, hk, rfl⟩

theorem buf_spec {d : Distribution} (b : List ℝ) (hb : d.DIM * d.NOP ≤ b.length) :
    ∃ d', d.fromBuffer b ((d.DIM * d.NOP : Nat) : Int) = .ok d' ∧ d'.Sized ∧ d'.DIM = d.DIM ∧ d'.NOP = d.NOP ∧ d'.A = b.take (d.DIM * d.NOP) := by
  refine ⟨{ d with A := b.take (d.DIM * d.NOP) }, by simp [fromBuffer, hb], by simp [Sized, hb], rfl, rfl, rfl⟩

theorem reachable_sized {d : Distribution} (h : d.Reachable) : d.Sized := by
  induction h with
  | new rnd dim nop => exact new_sized rnd dim nop
  | sub rnd index n _ e ih => obtain ⟨s, h1, h2, _⟩ := sub_spec ih rnd index n; rw [h1] at e; injection e with e; rw [← e]; exact h2
  | scale dim f _ e ih => obtain ⟨s, h1, h2, _⟩ := scale_spec ih dim f; rw [h1] at e; injection e with e; rw [← e]; exact h2
  | gauss rnd dim _ e ih => obtain ⟨s, h1, h2, _⟩ := gauss_spec ih rnd dim; rw [h1] at e; injection e with e; rw [← e]; exact h2
  | corr i j f _ e ih => obtain ⟨s, h1, h2, _⟩ := corr_spec ih i j f; rw [h1] at e; injection e with e; rw [← e]; exact h2
  | set i j v _ e ih => obtain ⟨s, h1, h2, _⟩ := set_spec ih i j v; rw [h1] at e; injection e with e; rw [← e]; exact h2
  | @buf d d' b n _ e ih =>
    unfold fromBuffer at e
    split_ifs at e with q1 q2
    obtain ⟨s, h1, h2, _⟩ := buf_spec (d := d) b q2
    rw [show d.fromBuffer b ((d.DIM * d.NOP : Nat) : Int) = .ok { d with A := b.take (d.DIM * d.NOP) } by simp [fromBuffer, q2]] at h1
    injection h1 with h1
    injection e with e
    rw [← e, h1]; exact h2

/-- C29: reading a coordinate never touches memory outside the array: invalid addresses read as zero, valid ones
give the value written last at exactly that address; a write changes the addressed coordinate only and an invalid
write changes nothing. -/
theorem C29_read_write {d : Distribution} (hr : d.Reachable) (index dim : Int) (x : ℝ) :
    (∃ v, d.getCoordinate index dim = .ok v) ∧
    (¬ d.Valid index dim → d.getCoordinate index dim = .ok 0) ∧
    ∃ d', d.setCoordinate index dim x = .ok d' ∧ d'.DIM = d.DIM ∧ d'.NOP = d.NOP ∧
      (d.Valid index dim → d'.getCoordinate index dim = .ok x) ∧
      (∀ i k, (i, k) ≠ (index, dim) → d'.getCoordinate i k = d.getCoordinate i k) ∧
      (¬ d.Valid index dim → ∀ i k, d'.getCoordinate i k = d.getCoordinate i k) := by
  have h := reachable_sized hr
  refine ⟨get_total h _ _, get_invalid _ _, ?_⟩
  obtain ⟨d', h1, h2, h3, h4, h5⟩ := set_spec h index dim x
  refine ⟨d', h1, h3, h4, fun hv => ?_, fun i k hne => ?_, fun hv i k => ?_⟩
  · obtain ⟨v, hg⟩ := get_total h index dim
    rw [h5 _ _ v hg, if_pos ⟨rfl, rfl, hv⟩]
  · obtain ⟨v, hg⟩ := get_total h i k
    rw [h5 _ _ v hg, if_neg, hg]
    rintro ⟨rfl, rfl, -⟩; exact hne rfl
  · obtain ⟨v, hg⟩ := get_total h i k
    rw [h5 _ _ v hg, if_neg, hg]
    rintro ⟨rfl, rfl, q⟩; exact hv q

/-- C29: no operation on a distribution ever leaves its array, with any arguments (`fromBuffer`: given a buffer of
the announced size). -/
theorem C29_index_safe {d : Distribution} (hr : d.Reachable) :
    (∀ i k, d.getCoordinate i k ≠ .error .ub) ∧ (∀ i k v, d.setCoordinate i k v ≠ .error .ub) ∧
    (∀ k f, d.scale k f ≠ .error .ub) ∧ (∀ rnd k, d.generateGaussian rnd k ≠ .error .ub) ∧
    (∀ i k f, d.addCorrelation i k f ≠ .error .ub) ∧ (∀ rnd i n, d.subDist rnd i n ≠ .error .ub) ∧
    (∀ n, d.bufferData n ≠ .error .ub) ∧ (∀ (b : List ℝ), d.fromBuffer b b.length ≠ .error .ub) := by
  have h := reachable_sized hr
  refine ⟨fun i k => ?_, fun i k v => ?_, fun k f => ?_, fun rnd k => ?_, fun i k f => ?_, fun rnd i n => ?_, fun n => ?_, fun b => ?_⟩
  · obtain ⟨v, e⟩ := get_total h i k; rw [e]; simp
  · obtain ⟨s, e, _⟩ := set_spec h i k v; rw [e]; simp
  · obtain ⟨s, e, _⟩ := scale_spec h k f; rw [e]; simp
  · obtain ⟨s, e, _⟩ := gauss_spec h rnd k; rw [e]; simp
  · obtain ⟨s, e, _⟩ := corr_spec h i k f; rw [e]; simp
  · obtain ⟨s, e, _⟩ := sub_spec h rnd i n; rw [e]; simp
  · unfold bufferData; split_ifs <;> simp
  · unfold fromBuffer; split_ifs with h1 h2 <;> simp
    omega

/-- C29: export needs a buffer of exactly `DIM*NOP` values, in which value number `i*DIM+k` is coordinate `k` of
particle `i`; loading it into any distribution of the same shape reproduces all coordinates; every other size is
rejected with `IOexception`. -/
theorem C29_buffers {d : Distribution} (hr : d.Reachable) :
    (∀ n : Int, n ≠ ((d.DIM * d.NOP : Nat) : Int) → d.bufferData n = .error .io ∧ ∀ b, d.fromBuffer b n = .error .io) ∧
    ∃ buf, d.bufferData ((d.DIM * d.NOP : Nat) : Int) = .ok buf ∧ buf.length = d.DIM * d.NOP ∧
      (∀ i k : Nat, i < d.NOP → k < d.DIM → ∃ v, buf[i * d.DIM + k]? = some v ∧ d.getCoordinate i k = .ok v) ∧
      ∀ e : Distribution, e.DIM = d.DIM → e.NOP = d.NOP →
        ∃ e', e.fromBuffer buf ((d.DIM * d.NOP : Nat) : Int) = .ok e' ∧ e'.NOP = d.NOP ∧ e'.DIM = d.DIM ∧
          ∀ i k, e'.getCoordinate i k = d.getCoordinate i k := by
  have h := reachable_sized hr
  refine ⟨fun n hn => ⟨by simp only [bufferData]; rw [if_neg hn], fun b => by simp only [fromBuffer]; rw [if_neg hn]⟩, d.A, by simp [bufferData], h, ?_, ?_⟩
  · intro i k hi hk
    obtain ⟨v, h1, h2⟩ := get_sized h i k (by unfold Valid; omega)
    exact ⟨v, by simpa using h2, h1⟩
  · intro e hD hN
    obtain ⟨e', h1, h2, h3, h4, h5⟩ := buf_spec (d := e) d.A (by rw [hD, hN, h])
    rw [hD, hN] at h1 h5
    refine ⟨e', h1, h4.trans hN, h3.trans hD, ?_⟩
    have : e' = d := by
      cases e'; cases d
      simp only at h3 h4 h5 hD hN
      have hA : (_ : List ℝ).length = _ := h
      simp only [Distribution.mk.injEq]
      refine ⟨h3.trans hD, h4.trans hN, ?_⟩
      rw [h5]
      apply List.take_of_length_le
      exact hA.le
    intro i k
    rw [this]

/-- C29: a subset holds the requested number of particles of the same dimension; each is the particle of the
original distribution at the shifted index (coordinates outside the original read as zero, not as random numbers
as the documentation says). -/
theorem C29_subset {d : Distribution} (hr : d.Reachable) (rnd : Nat → ℝ) (index : Int) (n : Nat) :
    ∃ s, d.subDist rnd index n = .ok s ∧ s.DIM = d.DIM ∧ s.NOP = n ∧
      ∀ i k : Nat, i < n → k < d.DIM → s.getCoordinate i k = d.getCoordinate (index + i) k ∧
        (index + i < 0 ∨ d.NOP ≤ index + i → s.getCoordinate i k = .ok 0) := by
  obtain ⟨s, h1, h2, h3, h4, h5⟩ := sub_spec (reachable_sized hr) rnd index n
  refine ⟨s, h1, h3, h4, fun i k hi hk => ⟨h5 i k hi hk, fun ho => ?_⟩⟩
  rw [h5 i k hi hk, get_invalid]
  rintro ⟨q1, q2, -⟩
  omega

/-- C30: adding a linear correlation to a distribution adds `factor` times the independent to the dependent
coordinate of every particle and changes nothing else; illegal indices change nothing. -/
theorem C30_distribution {d : Distribution} (hr : d.Reachable) (ind dep : Int) (f : ℝ) :
    ∃ d', d.addCorrelation ind dep f = .ok d' ∧ d'.DIM = d.DIM ∧ d'.NOP = d.NOP ∧
      (∀ i v w, d.Valid i ind → d.Valid i dep → dep ≠ ind → d.getCoordinate i dep = .ok v → d.getCoordinate i ind = .ok w →
        d'.getCoordinate i dep = .ok (v + f * w)) ∧
      (∀ i k, k ≠ dep → d'.getCoordinate i k = d.getCoordinate i k) ∧
      ((ind < 0 ∨ d.DIM ≤ ind ∨ dep < 0 ∨ d.DIM ≤ dep ∨ dep = ind) → ∀ i k, d'.getCoordinate i k = d.getCoordinate i k) := by
  have h := reachable_sized hr
  obtain ⟨d', h1, h2, h3, h4, h5⟩ := corr_spec h ind dep f
  refine ⟨d', h1, h3, h4, fun i v w hv1 hv2 hne g1 g2 => ?_, fun i k hk => ?_, fun hbad i k => ?_⟩
  · rw [h5 _ _ v w g1 g2, if_pos ⟨rfl, hv2, hv1, hne⟩]
  · obtain ⟨v, hg⟩ := get_total h i k
    obtain ⟨w, hw⟩ := get_total h i ind
    rw [h5 _ _ v w hg hw, if_neg (by tauto), hg]
  · obtain ⟨v, hg⟩ := get_total h i k
    obtain ⟨w, hw⟩ := get_total h i ind
    rw [h5 _ _ v w hg hw, if_neg, hg]
    rintro ⟨rfl, q1, q2, q3⟩
    unfold Valid at q1 q2
    omega

/-- C30: scaling multiplies one coordinate of every particle and changes nothing else. -/
theorem C30_scale {d : Distribution} (hr : d.Reachable) (dim : Int) (f : ℝ) :
    ∃ d', d.scale dim f = .ok d' ∧ d'.DIM = d.DIM ∧ d'.NOP = d.NOP ∧
      (∀ i v, d.getCoordinate i dim = .ok v → d'.getCoordinate i dim = .ok (v * f)) ∧
      (∀ i k, k ≠ dim → d'.getCoordinate i k = d.getCoordinate i k) := by
  have h := reachable_sized hr
  obtain ⟨d', h1, h2, h3, h4, h5⟩ := scale_spec h dim f
  refine ⟨d', h1, h3, h4, fun i v g => ?_, fun i k hk => ?_⟩
  · rw [h5 _ _ v g]
    by_cases hv : d.Valid i dim
    · rw [if_pos ⟨rfl, hv⟩]
    · rw [if_neg (by tauto)]
      rw [get_invalid _ _ hv] at g
      injection g with g
      rw [← g]; simp
  · obtain ⟨v, hg⟩ := get_total h i k
    rw [h5 _ _ v hg, if_neg (by tauto), hg]

/-- non-vacuity: a reachable distribution with valid addresses -/
example : (Distribution.new (fun i => i) 6 10).Reachable ∧ (Distribution.new (fun i => i) 6 10).Valid 3 2 ∧
    (Distribution.new (fun i => i) 6 10).getCoordinate 3 2 = .ok 20 := by
  refine ⟨.new _ _ _, by simp [Valid, Distribution.new], ?_⟩
  obtain ⟨v, h1, h2⟩ := get_sized (new_sized (fun i => (i : ℝ)) 6 10) 3 2 (by simp [Valid, Distribution.new])
  rw [h1]
  simp [Distribution.new] at h2
  rw [← h2]

end Teufel
