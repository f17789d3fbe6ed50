import Verif.Spec.Propagate
import Verif.Lemmas.Mesh
import Verif.Lemmas.SourceScreen
import Verif.Lemmas.Observe
import Verif.Props.Vector
import Verif.Props.FieldTrace

/-!
# C52, C53, C55: command line, reflection, normal derivatives
-/

namespace Teufel

open Vec Mesh

namespace Propagate

/-! ## C55 -/

/-- C55 for `reflection`: no argument is accessed that was not given; the usage is printed exactly if there are less than
three file names. -/
theorem C55_reflection (argv : List String) :
    ∃ r, arguments reflectionMinimum argv = .ok r ∧ (r = none ↔ argv.length < 4) ∧
      ∀ a b c, r = some (a, b, c) → argv[1]? = some a ∧ argv[2]? = some b ∧ argv[3]? = some c := by
  unfold arguments reflectionMinimum
  by_cases h : argv.length < 4
  · rw [if_pos h]; exact ⟨none, rfl, by simp [h], by simp⟩
  · rw [if_neg h]
    refine ⟨some (argv[1], argv[2], argv[3]), ?_, by simp [h], ?_⟩
    · rw [vecAt_ok.mpr (List.getElem?_eq_getElem (by omega : 1 < argv.length)), vecAt_ok.mpr (List.getElem?_eq_getElem (by omega : 2 < argv.length)),
        vecAt_ok.mpr (List.getElem?_eq_getElem (by omega : 3 < argv.length))]
      rfl
    · intro a b c e
      simp only [Option.some.injEq, Prod.mk.injEq] at e
      obtain ⟨rfl, rfl, rfl⟩ := e
      exact ⟨List.getElem?_eq_getElem _, List.getElem?_eq_getElem _, List.getElem?_eq_getElem _⟩

/-- C55 for `propagate`: as above unless exactly two file names are given.  Missing: that case, see below. -/
theorem C55_propagate_partial (argv : List String) (hne : argv.length ≠ 3) :
    ∃ r, arguments propagateMinimum argv = .ok r ∧ (r = none ↔ argv.length < 4) ∧
      ∀ a b c, r = some (a, b, c) → argv[1]? = some a ∧ argv[2]? = some b ∧ argv[3]? = some c := by
  obtain ⟨r, h1, h2⟩ := C55_reflection argv
  refine ⟨r, ?_, h2⟩
  rw [← h1]
  unfold arguments reflectionMinimum propagateMinimum
  by_cases h : argv.length < 3
  · rw [if_pos h, if_pos (by omega)]
  · rw [if_neg h, if_neg (by omega)]

/-- C55 fails for `propagate`: with exactly two file names the program uses the third one, which is a null pointer. -/
theorem C55_full_statement_false : ¬ ∀ argv : List String, ∃ r, arguments propagateMinimum argv = .ok r := by
  intro h
  obtain ⟨r, hr⟩ := h ["propagate", "source.h5", "target.h5"]
  simp [arguments, propagateMinimum, Particle.vecAt, bind, Except.bind] at hr

/-! ## C52 -/

theorem reflect_loop (G : EMField → EMField) (tr : FieldTrace) (hw : tr.WF) : ∀ k ≤ tr.N,
    (List.range k).foldlM (fun (tr : FieldTrace) (it : Nat) => do
      let f ← tr.getField it
      tr.setField it (G f)) tr = .ok { tr with trace := (tr.trace.take k).map G ++ tr.trace.drop k } := by
  intro k
  induction k with
  | zero => intro _; simp; rfl
  | succ k ih =>
    intro hk
    rw [List.range_succ, List.foldlM_append, ih (by omega)]
    simp only [bind, Except.bind, List.foldlM_cons, List.foldlM_nil]
    have hlen : k < tr.trace.length := by rw [hw]; omega
    have hg : ((tr.trace.take k).map G ++ tr.trace.drop k)[k]? = some tr.trace[k] := by
      rw [List.getElem?_append_right (by simp), List.length_map, List.length_take, min_eq_left (by omega), Nat.sub_self,
        List.getElem?_drop, Nat.add_zero, List.getElem?_eq_getElem hlen]
    unfold FieldTrace.getField FieldTrace.setField
    dsimp only
    rw [if_neg (by omega), hg]
    dsimp only
    rw [if_neg (by omega), if_pos (by simp; omega)]
    simp only [pure, Except.pure, Except.ok.injEq, FieldTrace.mk.injEq, true_and]
    rw [List.set_append_right _ _ (by simp), List.length_map, List.length_take, min_eq_left (by omega), Nat.sub_self,
      List.drop_eq_getElem_cons hlen, List.set_cons_zero, List.take_succ_eq_append_getElem hlen, List.map_append]
    simp

/-- a loop over the cells of a mesh that replaces the trace of every cell -/
theorem mesh_loop (m : Mesh) (step : Mesh → Nat → Except Err Mesh) (new : Nat → FieldTrace) (hA : m.A.length = m.Np)
    (hstep : ∀ i < m.Np, ∀ A' : List FieldTrace, A'.length = m.A.length → A'[i]? = m.A[i]? →
      step { m with A := A' } i = .ok { m with A := A'.set i (new i) }) :
    ∀ k ≤ m.Np, (List.range k).foldlM step m = .ok { m with A := m.A.mapIdx (fun i tr => if i < k then new i else tr) } := by
  intro k
  induction k with
  | zero =>
    intro _
    simp only [List.range_zero, List.foldlM_nil, pure, Except.pure, Nat.not_lt_zero, if_false, Except.ok.injEq]
    have : m.A.mapIdx (fun _ tr => tr) = m.A := by
      apply List.ext_getElem?
      intro i
      rw [List.getElem?_mapIdx]
      cases m.A[i]? <;> rfl
    rw [this]
  | succ k ih =>
    intro hk
    rw [List.range_succ, List.foldlM_append, ih (by omega)]
    simp only [bind, Except.bind, List.foldlM_cons, List.foldlM_nil]
    rw [hstep k (by omega) _ (by simp) (by rw [List.getElem?_mapIdx]; simp)]
    simp only [pure, Except.pure]
    congr 2
    apply List.ext_getElem?
    intro i
    rw [List.getElem?_set, List.getElem?_mapIdx, List.getElem?_mapIdx, List.length_mapIdx]
    by_cases hik : k = i
    · subst hik
      rw [if_pos rfl, if_pos (by omega), List.getElem?_eq_getElem (by omega)]
      simp
    · rw [if_neg hik]
      cases m.A[i]? with
      | none => rfl
      | some tr =>
        simp only [Option.map_some]
        by_cases h1 : i < k
        · rw [if_pos h1, if_pos (by omega)]
        · rw [if_neg h1, if_neg (by omega)]

/-- the mesh after the reflection -/
theorem reflect_of (m : Mesh) (hm : m.WellSampled) (g : MeshGeometry) (n : Nat → Vec)
    (hn : ∀ ip < m.Np, g.normal[ip]? = some (.ok (n ip))) (hu : ∀ ip < m.Np, dot (n ip) (n ip) = 1) :
    reflect g m = .ok { m with A := m.A.mapIdx (fun i tr => { tr with trace := tr.trace.map (reflectField (n i)) }) } := by
  obtain ⟨-, -, -, hA, hw⟩ := hm
  have hget : ∀ i < m.Np, m.A[i]? = some ((m.A[i]?).getD (FieldTrace.new 0 0 0)) := by
    intro i hi; rw [List.getElem?_eq_getElem (by omega)]; rfl
  let tr : Nat → FieldTrace := fun i => (m.A[i]?).getD (FieldTrace.new 0 0 0)
  have htr : ∀ i < m.Np, tr i ∈ m.A := fun i hi => List.mem_of_getElem? (hget i hi)
  unfold reflect
  rw [mesh_loop m (reflectCell g) (fun i => { tr i with trace := (tr i).trace.map (reflectField (n i)) }) hA ?_ m.Np (le_refl _)]
  · congr 2
    apply List.ext_getElem?
    intro i
    rw [List.getElem?_mapIdx, List.getElem?_mapIdx]
    by_cases hi : i < m.Np
    · rw [hget i hi]; simp [hi, tr]
    · rw [List.getElem?_eq_none (by omega)]; rfl
  · intro i hi A' hl hA'
    have e1 : A'[i]? = some (tr i) := by rw [hA']; exact hget i hi
    unfold reflectCell Mesh.getTrace Mesh.setTrace
    dsimp only
    rw [vecAt_ok.mpr e1]
    simp only [bind, Except.bind]
    rw [vecAt_ok.mpr (hn i hi)]
    dsimp only
    rw [normalizeE_of_ne (ne_zero_of (hu i hi)), normalize_of_unit (hu i hi)]
    dsimp only
    have hl := reflect_loop (reflectField (n i)) (tr i) (hw _ (htr i hi)).1 (tr i).N (le_refl _)
    simp only [bind, Except.bind] at hl
    rw [hl]
    dsimp only
    rw [List.take_of_length_le (by rw [(hw _ (htr i hi)).1]), List.drop_of_length_le (by rw [(hw _ (htr i hi)).1]), List.append_nil]
    unfold FieldTrace.assign
    rw [if_neg (by simp)]
    rfl

theorem reflect_poynting {n : Vec} (h : dot n n = 1) (F : EMField) :
    (reflectField n F).Poynting = F.Poynting - n * (2 * dot F.Poynting n) := by
  simp only [dot] at h
  unfold EMField.Poynting reflectField
  ext <;> simp [cross, dot]
  · linear_combination (2 * (F.E.y * F.B.z - F.E.z * F.B.y) / MuNull) * h
  · linear_combination (2 * (F.E.z * F.B.x - F.E.x * F.B.z) / MuNull) * h
  · linear_combination (2 * (F.E.x * F.B.y - F.E.y * F.B.x) / MuNull) * h

end Propagate

open Propagate

/-- C52: for a mesh of non-degenerate cells the reflection succeeds.  Only the fields are changed, and for every cell with
normal `n` and every sample, incident field `F` and reflected field `F'` satisfy the boundary conditions of a perfect
conductor: the sum has no tangential electric and no normal magnetic field.  The energy flow normal to the surface is
reversed, the tangential one is kept. -/
theorem C52_boundary (m : Mesh) (hm : m.WellSampled) (g : MeshGeometry) (n : Nat → Vec)
    (hn : ∀ ip < m.Np, g.normal[ip]? = some (.ok (n ip))) (hu : ∀ ip < m.Np, dot (n ip) (n ip) = 1) :
    ∃ m', reflect g m = .ok m' ∧ m' = { m with A := m'.A } ∧ m'.WellSampled ∧
      ∀ (ip it : Nat) (tr : FieldTrace) (F : EMField), ip < m.Np → m.A[ip]? = some tr → tr.trace[it]? = some F →
        ∃ (tr' : FieldTrace) (F' : EMField), m'.A[ip]? = some tr' ∧ tr'.t0 = tr.t0 ∧ tr'.trace[it]? = some F' ∧
          (F.E + F'.E) - n ip * dot (F.E + F'.E) (n ip) = 0 ∧ dot (F.B + F'.B) (n ip) = 0 ∧
          dot F'.Poynting (n ip) = -dot F.Poynting (n ip) ∧
          F'.Poynting - n ip * dot F'.Poynting (n ip) = F.Poynting - n ip * dot F.Poynting (n ip) := by
  refine ⟨_, reflect_of m hm g n hn hu, rfl, ?_, ?_⟩
  · obtain ⟨h1, h2, h3, h4, h5⟩ := hm
    refine ⟨h1, h2, h3, by simpa using h4, ?_⟩
    intro tr htr
    obtain ⟨i, hi, rfl⟩ := List.mem_iff_getElem.mp htr
    simp only [List.length_mapIdx] at hi
    have := h5 m.A[i] (List.getElem_mem hi)
    simp only [List.getElem_mapIdx]
    exact ⟨by have h := this.1; unfold FieldTrace.WF at h ⊢; simpa using h, this.2.1, this.2.2⟩
  · intro ip it tr F hip htr hF
    refine ⟨{ tr with trace := tr.trace.map (reflectField (n ip)) }, reflectField (n ip) F, ?_, rfl, ?_, ?_, ?_, ?_, ?_⟩
    · rw [List.getElem?_mapIdx, htr]; rfl
    · rw [List.getElem?_map, hF]; rfl
    · have h1 := hu ip hip
      have e : F.E + (reflectField (n ip) F).E = n ip * (2 * dot F.E (n ip)) := by
        unfold reflectField; ext <;> simp <;> ring
      rw [e, dot_mul_left, h1]
      ext <;> simp
    · have h1 := hu ip hip
      have e : F.B + (reflectField (n ip) F).B = F.B * (2 : ℝ) - n ip * (2 * dot F.B (n ip)) := by
        unfold reflectField; ext <;> simp <;> ring
      rw [e, dot_sub_left, dot_mul_left, dot_mul_left, h1]
      ring
    · rw [reflect_poynting (hu ip hip), dot_sub_left, dot_mul_left, hu ip hip]
      ring
    · rw [reflect_poynting (hu ip hip), dot_sub_left, dot_mul_left, hu ip hip]
      ext <;> simp <;> ring

/-- C52: reflecting twice restores the fields. -/
theorem C52_twice (m : Mesh) (hm : m.WellSampled) (g : MeshGeometry) (n : Nat → Vec)
    (hn : ∀ ip < m.Np, g.normal[ip]? = some (.ok (n ip))) (hu : ∀ ip < m.Np, dot (n ip) (n ip) = 1) :
    ∃ m', reflect g m = .ok m' ∧ reflect g m' = .ok m := by
  obtain ⟨m', h1, h2, h3, -⟩ := C52_boundary m hm g n hn hu
  refine ⟨m', h1, ?_⟩
  have e := reflect_of m hm g n hn hu
  rw [h1] at e
  have e : m' = _ := Except.ok.inj e
  have hNp : m'.Np = m.Np := by rw [e]
  rw [reflect_of m' h3 g n (by rw [hNp]; exact hn) (by rw [hNp]; exact hu), e]
  congr 1
  have : (m.A.mapIdx fun i tr => { tr with trace := tr.trace.map (reflectField (n i)) }).mapIdx
      (fun i tr => ({ tr with trace := tr.trace.map (reflectField (n i)) } : FieldTrace)) = m.A := by
    apply List.ext_getElem?
    intro i
    rw [List.getElem?_mapIdx, List.getElem?_mapIdx]
    by_cases hi : i < m.A.length
    · rw [List.getElem?_eq_getElem hi]
      simp only [Option.map_some, List.map_map]
      have hu' := hu i (by rw [← hm.2.2.2.1]; exact hi)
      have : ∀ F : EMField, reflectField (n i) (reflectField (n i) F) = F := by
        intro F
        simp only [dot] at hu'
        unfold reflectField
        ext <;> simp [dot]
        · linear_combination (4 * (n i).x * (F.E.x * (n i).x + F.E.y * (n i).y + F.E.z * (n i).z)) * hu'
        · linear_combination (4 * (n i).y * (F.E.x * (n i).x + F.E.y * (n i).y + F.E.z * (n i).z)) * hu'
        · linear_combination (4 * (n i).z * (F.E.x * (n i).x + F.E.y * (n i).y + F.E.z * (n i).z)) * hu'
        · linear_combination (4 * (n i).x * (F.B.x * (n i).x + F.B.y * (n i).y + F.B.z * (n i).z)) * hu'
        · linear_combination (4 * (n i).y * (F.B.x * (n i).x + F.B.y * (n i).y + F.B.z * (n i).z)) * hu'
        · linear_combination (4 * (n i).z * (F.B.x * (n i).x + F.B.y * (n i).y + F.B.z * (n i).z)) * hu'
      have hc : (reflectField (n i) ∘ reflectField (n i)) = id := by funext F; exact this F
      rw [hc, List.map_id]
    · rw [List.getElem?_eq_none (by omega)]; rfl
  rw [this]

/-! ## C53 -/

theorem HasDirDeriv.unique {G : Vec → Vec} {P v d d' : Vec} (h : HasDirDeriv G P v d) (h' : HasDirDeriv G P v d') : d = d' := by
  ext
  · exact h.1.unique h'.1
  · exact h.2.1.unique h'.2.1
  · exact h.2.2.unique h'.2.2

theorem Mesh.RightHanded.cyclic {xi eta n : Vec} (h : RightHanded xi eta n) : cross eta n = xi ∧ cross n xi = eta := by
  obtain ⟨h1, h2, h3, h4, h5, h6, rfl⟩ := h
  have e1 : cross eta (cross xi eta) = xi * dot eta eta - eta * dot xi eta := by ext <;> simp [dot] <;> ring
  have e2 : cross (cross xi eta) xi = eta * dot xi xi - xi * dot xi eta := by ext <;> simp [dot] <;> ring
  rw [e1, e2, h1, h2, h4]
  constructor <;> ext <;> simp

/-- components in a right-handed frame -/
theorem Mesh.RightHanded.expand {xi eta n : Vec} (h : RightHanded xi eta n) (v : Vec) : xi * dot v xi + eta * dot v eta + n * dot v n = v := by
  obtain ⟨c1, c2⟩ := h.cyclic
  obtain ⟨h1, h2, h3, h4, h5, h6, h7⟩ := h
  have e : v * dot n n = n * dot v n + cross (cross n v) n := by ext <;> simp [dot] <;> ring
  have e2 : cross n v = eta * dot v xi - xi * dot v eta := by rw [← h7]; ext <;> simp [dot] <;> ring
  have e3 : cross (cross n v) n = cross eta n * dot v xi + cross n xi * dot v eta := by rw [e2]; ext <;> simp <;> ring
  rw [h3, e3, c1, c2] at e
  have e4 : v * (1 : ℝ) = v := mul_one' v
  rw [e4] at e
  conv_rhs => rw [e]
  ext <;> simp <;> ring

/-- the derivative in the direction `n` from divergence and curl -/
theorem jacobian_normal {xi eta n : Vec} (h : RightHanded xi eta n) (gx gy gz w : Vec)
    (hd : gx.x + gy.y + gz.z = 0) (hc : (⟨gy.z - gz.y, gz.x - gx.z, gx.y - gy.x⟩ : Vec) = w) :
    let J := fun a : Vec => gx * a.x + gy * a.y + gz * a.z
    J n = xi * (dot (J xi) n + dot w eta) + eta * (dot (J eta) n - dot w xi) + n * (-dot (J xi) xi - dot (J eta) eta) := by
  intro J
  obtain ⟨c1, c2⟩ := h.cyclic
  have hJ : ∀ a b : Vec, dot (J b) a - dot (J a) b = dot w (cross b a) := by
    intro a b; rw [← hc]; simp [J, dot]; ring
  have e1 : dot (J n) xi = dot (J xi) n + dot w eta := by have := hJ xi n; rw [c2] at this; linarith
  have e2 : dot (J n) eta = dot (J eta) n - dot w xi := by have := hJ n eta; rw [c1] at this; linarith
  have e3 : dot (J n) n = -dot (J xi) xi - dot (J eta) eta := by
    have hx := congrArg Vec.x (h.expand gx)
    have hy := congrArg Vec.y (h.expand gy)
    have hz := congrArg Vec.z (h.expand gz)
    simp [J, dot] at hx hy hz ⊢
    linarith
  rw [← e1, ← e2, ← e3, h.expand]

/-- C53: the normal derivative computed from the transversal derivatives `dx`, `dy` and the time derivative `dt` (all
components in the frame `xi`, `eta`, `n`) is the derivative of the fields in the direction of the normal, for every
field that satisfies Maxwell's equations in vacuum. -/
theorem C53_normal_derivative (E B : ℝ → Vec → Vec) (t : ℝ) (P et bt : Vec) (hM : VacuumMaxwell E B t P et bt)
    (xi eta n : Vec) (hF : RightHanded xi eta n) (Ex Ey Bx By : Vec)
    (h1 : HasDirDeriv (E t) P xi Ex) (h2 : HasDirDeriv (E t) P eta Ey) (h3 : HasDirDeriv (B t) P xi Bx) (h4 : HasDirDeriv (B t) P eta By) :
    let loc := FieldTrace.transformField xi eta n
    let r := normalDerivative xi eta n (loc ⟨Ex, Bx⟩) (loc ⟨Ey, By⟩) (loc ⟨et, bt⟩)
    HasDirDeriv (E t) P n r.E ∧ HasDirDeriv (B t) P n r.B := by
  obtain ⟨-, -, ex, ey, ez, bx, by', bz, jE, jB, dE, dB, cE, cB⟩ := hM
  intro loc r
  have e1 := h1.unique (jE xi)
  have e2 := h2.unique (jE eta)
  have e3 := h3.unique (jB xi)
  have e4 := h4.unique (jB eta)
  have kE := jacobian_normal hF ex ey ez _ dE cE
  have kB := jacobian_normal hF bx by' bz _ dB cB
  dsimp only at kE kB
  rw [← e1, ← e2] at kE
  rw [← e3, ← e4] at kB
  have rE : r.E = ex * n.x + ey * n.y + ez * n.z := by
    rw [kE]
    simp only [r, loc, normalDerivative, FieldTrace.transformField, dot_neg_left, sub_eq_add_neg, neg_neg]
  have rB : r.B = bx * n.x + by' * n.y + bz * n.z := by
    rw [kB]
    simp only [r, loc, normalDerivative, FieldTrace.transformField, dot_div_left]
  rw [rE, rB]
  exact ⟨jE n, jB n⟩

/-! ### the fit -/

theorem residual_terms (A : List (List ℝ)) (q x : List ℝ) :
    (0 ≤ residual A (A.map fun r => rowDot r q) x) ∧
    (residual A (A.map fun r => rowDot r q) x = 0 → ∀ r ∈ A, rowDot r x = rowDot r q) ∧ residual A (A.map fun r => rowDot r q) q = 0 := by
  induction A with
  | nil => simp [residual]
  | cons r A ih =>
    obtain ⟨i1, i2, i3⟩ := ih
    have e : ∀ y, residual (r :: A) ((r :: A).map fun r => rowDot r q) y = (rowDot r y - rowDot r q) ^ 2 + residual A (A.map fun r => rowDot r q) y := by
      intro y; unfold residual; simp
    refine ⟨by rw [e]; positivity, ?_, by rw [e, i3]; ring⟩
    rw [e]
    intro h0
    have hs := sq_nonneg (rowDot r x - rowDot r q)
    have h1 : (rowDot r x - rowDot r q) ^ 2 = 0 := by linarith
    have h2 := i2 (by linarith)
    intro r' hr'
    rcases List.mem_cons.mp hr' with rfl | hr'
    · have := pow_eq_zero_iff (two_ne_zero) |>.mp h1; linarith
    · exact h2 r' hr'

theorem rowDot_sub (r : List ℝ) : ∀ x q : List ℝ, x.length = q.length →
    rowDot r (List.zipWith (fun a b : ℝ => a - b) x q) = rowDot r x - rowDot r q := by
  unfold rowDot
  induction r with
  | nil => intro x q _; simp
  | cons a r ih =>
    intro x q h
    cases x with
    | nil => cases q with
      | nil => simp
      | cons => simp at h
    | cons x xs => cases q with
      | nil => simp at h
      | cons q qs =>
        have := ih xs qs (by simpa using h)
        simp only [List.zipWith_cons_cons, List.sum_cons, this]
        ring

/-- C53: the least-squares fit reproduces the coefficients of every polynomial of second order, if the positions of the
cells determine them. -/
theorem C53_fit (A : List (List ℝ)) (hA : FullRank A) (q x : List ℝ) (hq : q.length = 6)
    (hx : IsLeastSquares A (A.map fun r => rowDot r q) x) : x = q := by
  obtain ⟨hl, hm⟩ := hx
  obtain ⟨r1, r2, r3⟩ := residual_terms A q x
  have h0 : residual A (A.map fun r => rowDot r q) x = 0 := le_antisymm (by have := hm q hq; rw [r3] at this; exact this) r1
  have h1 := r2 h0
  have h2 := hA (List.zipWith (fun a b : ℝ => a - b) x q) (by simp [hl, hq]) (by
    intro r hr; rw [rowDot_sub r x q (by omega), h1 r hr]; ring)
  apply List.ext_getElem (by omega)
  intro i hi hi'
  have := h2 (x[i] - q[i]) (List.mem_iff_getElem.mpr ⟨i, by simp; omega, by simp⟩)
  linarith

theorem Quadratic.derivs {G : Vec → Vec} {P xi eta : Vec} {q0 q1 q2 q3 q4 q5 : Vec}
    (h : ∀ x y : ℝ, G (P + xi * x + eta * y) = q0 + q1 * x + q2 * y + q3 * (x * x) + q4 * (y * y) + q5 * (x * y)) :
    HasDirDeriv G P xi q1 ∧ HasDirDeriv G P eta q2 := by
  have hx : ∀ s : ℝ, G (P + xi * s) = q0 + q1 * s + q3 * (s * s) := by
    intro s
    have := h s 0
    have e : P + xi * s + eta * (0 : ℝ) = P + xi * s := by ext <;> simp
    rw [e] at this
    rw [this]; ext <;> simp
  have hy : ∀ s : ℝ, G (P + eta * s) = q0 + q2 * s + q4 * (s * s) := by
    intro s
    have := h 0 s
    have e : P + xi * (0 : ℝ) + eta * s = P + eta * s := by ext <;> simp
    rw [e] at this
    rw [this]; ext <;> simp
  have key : ∀ a b c : ℝ, HasDerivAt (fun s : ℝ => a + b * s + c * (s * s)) b 0 := by
    intro a b c
    have h1 : HasDerivAt (fun s : ℝ => s) 1 0 := hasDerivAt_id 0
    have h2 : HasDerivAt (fun s : ℝ => a + b * s) (b * 1) 0 := (h1.const_mul b).const_add a
    have h3 : HasDerivAt (fun s : ℝ => c * (s * s)) (c * (1 * 0 + 0 * 1)) 0 := (h1.mul h1).const_mul c
    have h4 : HasDerivAt (fun s : ℝ => a + b * s + c * (s * s)) (b * 1 + c * (1 * 0 + 0 * 1)) 0 := h2.add h3
    exact h4.congr_deriv (by ring)
  unfold HasDirDeriv
  simp only [hx, hy]
  exact ⟨⟨by simpa using key q0.x q1.x q3.x, by simpa using key q0.y q1.y q3.y, by simpa using key q0.z q1.z q3.z⟩,
    ⟨by simpa using key q0.x q2.x q4.x, by simpa using key q0.y q2.y q4.y, by simpa using key q0.z q2.z q4.z⟩⟩

/-- the slopes of the component along `e` of a field of second order -/
theorem slopes_of (solve : Solver) {xi eta n ref : Vec} (hF : RightHanded xi eta n) (pts : List Vec) (hp : ∀ p ∈ pts, dot (p - ref) n = 0)
    (hR : FullRank (pts.map (designRow xi eta n ref)))
    (hs : ∀ b : List ℝ, b.length = pts.length → IsLeastSquares (pts.map (designRow xi eta n ref)) b (solve (pts.map (designRow xi eta n ref)) b))
    {G : Vec → Vec} {q0 q1 q2 q3 q4 q5 : Vec}
    (h : ∀ x y : ℝ, G (ref + xi * x + eta * y) = q0 + q1 * x + q2 * y + q3 * (x * x) + q4 * (y * y) + q5 * (x * y)) (e : Vec) :
    slopes solve (pts.map (designRow xi eta n ref)) (pts.map fun p => dot (G p) e) = .ok (dot q1 e, dot q2 e) := by
  have hb : (pts.map fun p => dot (G p) e) =
      (pts.map (designRow xi eta n ref)).map (fun r => rowDot r [dot q0 e, dot q1 e, dot q2 e, dot q3 e, dot q4 e, dot q5 e]) := by
    rw [List.map_map]
    apply List.map_congr_left
    intro p hpm
    have e1 : p = ref + xi * dot (p - ref) xi + eta * dot (p - ref) eta := by
      have := hF.expand (p - ref)
      rw [hp p hpm] at this
      have h2 : p = ref + (p - ref) := by ext <;> simp
      rw [h2]
      conv_lhs => rw [← this]
      ext <;> simp <;> ring
    have e2 := h (dot (p - ref) xi) (dot (p - ref) eta)
    rw [← e1] at e2
    rw [e2]
    simp only [Function.comp, designRow, rowDot, Vec.transform]
    simp [dot_add_left, dot_mul_left]
    ring
  have hx := C53_fit _ hR [dot q0 e, dot q1 e, dot q2 e, dot q3 e, dot q4 e, dot q5 e] _ rfl (by rw [← hb]; exact hs _ (by simp))
  unfold slopes
  rw [hx]
  rfl

/-- C53 for one sample: let `E`, `B` satisfy Maxwell's equations at the position of the cell and depend on the position
in the plane of the cell at most quadratically, let the neighbouring cells lie in this plane and be sufficient to
determine a polynomial of second order, let their traces hold the fields at their positions and let the local trace of
time derivatives hold the true derivative.  Then the sample set is the derivative of the fields along the normal. -/
theorem C53_sample (solve : Solver) (xi eta n ref : Vec) (hF : RightHanded xi eta n) (pts : List Vec) (hp : ∀ p ∈ pts, dot (p - ref) n = 0)
    (hR : FullRank (pts.map (designRow xi eta n ref)))
    (hs : ∀ b : List ℝ, b.length = pts.length → IsLeastSquares (pts.map (designRow xi eta n ref)) b (solve (pts.map (designRow xi eta n ref)) b))
    (traces : List FieldTrace) (localTrace localDt : FieldTrace) (it : Nat) (t : ℝ) (ht : localTrace.getTime it = .ok t)
    (E B : ℝ → Vec → Vec) (et bt : Vec) (hM : VacuumMaxwell E B t ref et bt) (hE : Quadratic (E t) ref xi eta) (hB : Quadratic (B t) ref xi eta)
    (htr : traces.map (fun tr => tr.fieldAtTime t) = pts.map (fun p => ⟨E t p, B t p⟩))
    (hdt : localDt.getField it = .ok ⟨et, bt⟩) :
    ∃ F : EMField, (∀ dn : FieldTrace, dn.WF → it < dn.N →
        normalSample solve xi eta n (pts.map (designRow xi eta n ref)) (traces.map fun tr => tr.transform xi eta n)
          localTrace (localDt.transform xi eta n) dn it = .ok { dn with trace := dn.trace.set it F }) ∧
      HasDirDeriv (E t) ref n F.E ∧ HasDirDeriv (B t) ref n F.B := by
  obtain ⟨a0, a1, a2, a3, a4, a5, ha⟩ := hE
  obtain ⟨b0, b1, b2, b3, b4, b5, hb⟩ := hB
  obtain ⟨dE1, dE2⟩ := Quadratic.derivs ha
  obtain ⟨dB1, dB2⟩ := Quadratic.derivs hb
  refine ⟨_, ?_, C53_normal_derivative E B t ref et bt hM xi eta n hF a1 a2 b1 b2 dE1 dE2 dB1 dB2⟩
  have htr' : (traces.map fun tr : FieldTrace => tr.transform xi eta n).map (fun tr : FieldTrace => tr.fieldAtTime t) =
      pts.map (fun p => FieldTrace.transformField xi eta n ⟨E t p, B t p⟩) := by
    rw [List.map_map]
    have : ((fun tr : FieldTrace => tr.fieldAtTime t) ∘ fun tr : FieldTrace => tr.transform xi eta n) = fun tr : FieldTrace => FieldTrace.transformField xi eta n (tr.fieldAtTime t) := by
      funext tr
      exact FieldTrace.fieldAtTime_map (transformField_lin xi eta n) tr t
    rw [this]
    have h2 := congrArg (List.map (FieldTrace.transformField xi eta n)) htr
    rw [List.map_map, List.map_map] at h2
    exact h2
  have hgf : (localDt.transform xi eta n).getField it = .ok (FieldTrace.transformField xi eta n ⟨et, bt⟩) := by
    unfold FieldTrace.getField at hdt ⊢
    simp only [FieldTrace.transform, List.getElem?_map]
    by_cases h : it ≥ localDt.N
    · rw [if_pos h] at hdt; simp at hdt
    · rw [if_neg h] at hdt ⊢
      cases hq : localDt.trace[it]? with
      | none => rw [hq] at hdt; simp at hdt
      | some f => rw [hq] at hdt; simp only [Except.ok.injEq] at hdt; subst hdt; rfl
  have hg : gradients solve (pts.map (designRow xi eta n ref)) (pts.map (fun p => FieldTrace.transformField xi eta n ⟨E t p, B t p⟩)) =
      .ok (FieldTrace.transformField xi eta n ⟨a1, b1⟩, FieldTrace.transformField xi eta n ⟨a2, b2⟩) := by
    have kE := slopes_of solve hF pts hp hR hs ha
    have kB := slopes_of solve hF pts hp hR hs hb
    unfold gradients
    simp only [List.map_map]
    have c1 := kE xi; have c2 := kE eta; have c3 := kE n
    have c4 := kB xi; have c5 := kB eta; have c6 := kB n
    simp only [Function.comp_def, FieldTrace.transformField]
    rw [c1, c2, c3, c4, c5, c6]
    rfl
  intro dn hw hit
  unfold normalSample
  rw [ht]
  simp only [bind, Except.bind]
  rw [htr', hg]
  dsimp only
  rw [hgf]
  dsimp only
  unfold FieldTrace.setField
  rw [if_neg (by omega), if_pos (by rw [hw]; exact hit)]

/-- a loop that sets one sample after the other -/
theorem sample_loop (step : FieldTrace → Nat → Except Err FieldTrace) (F : Nat → EMField) (N : Nat)
    (hs : ∀ dn : FieldTrace, dn.WF → dn.N = N → ∀ it < N, step dn it = .ok { dn with trace := dn.trace.set it (F it) })
    (tr : FieldTrace) (hw : tr.WF) (hN : tr.N = N) : ∀ k ≤ N, ∃ r : FieldTrace, (List.range k).foldlM step tr = .ok r ∧ r.WF ∧
      r.t0 = tr.t0 ∧ r.dt = tr.dt ∧ r.N = N ∧ ∀ i < k, r.trace[i]? = some (F i) := by
  intro k
  induction k with
  | zero => intro _; exact ⟨tr, rfl, hw, rfl, rfl, hN, fun i hi => absurd hi (by omega)⟩
  | succ k ih =>
    intro hk
    obtain ⟨r, h1, h2, h3, h4, h5, h6⟩ := ih (by omega)
    refine ⟨{ r with trace := r.trace.set k (F k) }, ?_, by unfold FieldTrace.WF at h2 ⊢; simpa using h2, h3, h4, h5, ?_⟩
    · rw [List.range_succ, List.foldlM_append, h1]
      simp only [bind, Except.bind, List.foldlM_cons, List.foldlM_nil]
      rw [hs r h2 h5 k (by omega)]
      rfl
    · intro i hi
      dsimp only
      rw [List.getElem?_set]
      by_cases hik : k = i
      · subst hik; rw [if_pos rfl, if_pos (by rw [h2, h5]; omega)]
      · rw [if_neg hik]; exact h6 i (by omega)

theorem mapM_vecAt_of {α : Type} {l : List α} : ∀ {is : List Nat} {as : List α}, is.map (fun i => l[i]?) = as.map some →
    is.mapM (fun i : Nat => Particle.vecAt l i) = .ok as := by
  intro is
  induction is with
  | nil => intro as h; cases as with
    | nil => rfl
    | cons => simp at h
  | cons i is ih =>
    intro as h
    cases as with
    | nil => simp at h
    | cons a as =>
      simp only [List.map_cons, List.cons.injEq] at h
      rw [List.mapM_cons, vecAt_ok.mpr h.1, ih h.2]
      rfl

/-- C53 for one cell of a source mesh with the local frame `xi`, `eta`, `n`: under the conditions of `C53_sample` at all
times of the trace, the trace computed for the cell has the sampling of the recorded trace and holds the normal
derivatives of the fields at all these times. -/
theorem C53_trace (solve : Solver) (m : Mesh) (hm : m.WellSampled) (g : MeshGeometry) (dts : List FieldTrace) (index : Nat) (nbh : List Nat)
    (hn : m.getNeighbourhood index 24 = .ok nbh) (ref : Vec) (href : m.points[index]? = some ref)
    (xi eta n : Vec) (hF : Framed g index xi eta n) (pts : List Vec) (hpts : nbh.map (fun i => m.points[i]?) = pts.map some)
    (hp : ∀ p ∈ pts, dot (p - ref) n = 0) (hR : FullRank (pts.map (designRow xi eta n ref)))
    (hs : ∀ b : List ℝ, b.length = pts.length → IsLeastSquares (pts.map (designRow xi eta n ref)) b (solve (pts.map (designRow xi eta n ref)) b))
    (tr : FieldTrace) (htr : m.A[index]? = some tr) (traces : List FieldTrace) (htrs : nbh.map (fun i => m.A[i]?) = traces.map some)
    (d : FieldTrace) (hd : dts[index]? = some d) (hdN : d.N = m.Nt)
    (E B : ℝ → Vec → Vec) (et bt : Nat → Vec)
    (hM : ∀ it < m.Nt, ∃ t, t = tr.t0 + (it : ℝ) * m.dt ∧ VacuumMaxwell E B t ref (et it) (bt it) ∧
      Quadratic (E t) ref xi eta ∧ Quadratic (B t) ref xi eta ∧
      traces.map (fun tr => tr.fieldAtTime t) = pts.map (fun p => ⟨E t p, B t p⟩) ∧ d.trace[it]? = some ⟨et it, bt it⟩) :
    ∃ r, normalTrace solve m g dts index = .ok r ∧ r.WF ∧ r.t0 = tr.t0 ∧ r.dt = m.dt ∧ r.N = m.Nt ∧
      ∀ it < m.Nt, ∃ F, r.trace[it]? = some F ∧
        HasDirDeriv (E (tr.t0 + (it : ℝ) * m.dt)) ref n F.E ∧ HasDirDeriv (B (tr.t0 + (it : ℝ) * m.dt)) ref n F.B := by
  obtain ⟨f1, f2, f3, f4⟩ := hF
  obtain ⟨w1, w2, w3⟩ := hm.2.2.2.2 tr (List.mem_of_getElem? htr)
  have hsample : ∀ it : Nat, ∃ F : EMField, it < m.Nt → (∀ dn : FieldTrace, dn.WF → it < dn.N →
        normalSample solve xi eta n (pts.map (designRow xi eta n ref)) (traces.map fun tr => tr.transform xi eta n)
          tr (d.transform xi eta n) dn it = .ok { dn with trace := dn.trace.set it F }) ∧
        HasDirDeriv (E (tr.t0 + (it : ℝ) * m.dt)) ref n F.E ∧ HasDirDeriv (B (tr.t0 + (it : ℝ) * m.dt)) ref n F.B := by
    intro it
    by_cases hit : it < m.Nt
    · obtain ⟨t, rfl, m1, m2, m3, m4, m5⟩ := hM it hit
      obtain ⟨F, hFF⟩ := C53_sample solve xi eta n ref f4 pts hp hR hs traces tr d it _
        (by unfold FieldTrace.getTime; rw [if_neg (by omega), w3]) E B (et it) (bt it) m1 m2 m3 m4
        (by unfold FieldTrace.getField; rw [if_neg (by omega), m5])
      exact ⟨F, fun _ => hFF⟩
    · exact ⟨0, fun h => absurd h hit⟩
  choose F hFF using hsample
  obtain ⟨r, r1, r2, r3, r4, r5, r6⟩ := sample_loop
    (normalSample solve xi eta n (pts.map (designRow xi eta n ref)) (traces.map fun tr => tr.transform xi eta n) tr (d.transform xi eta n))
    F m.Nt (fun dn h1 h2 it hit => (hFF it hit).1 dn h1 (by omega)) tr w1 w2 m.Nt (le_refl _)
  refine ⟨r, ?_, r2, r3, by rw [r4, w3], r5, fun it hit => ⟨F it, r6 it hit, (hFF it hit).2⟩⟩
  unfold normalTrace
  rw [hn]
  simp only [bind, Except.bind]
  rw [vecAt_ok.mpr href, vecAt_ok.mpr f1]
  dsimp only
  rw [vecAt_ok.mpr f2]
  dsimp only
  rw [vecAt_ok.mpr f3]
  dsimp only
  rw [mapM_vecAt_of hpts]
  dsimp only
  unfold Mesh.getTrace
  rw [vecAt_ok.mpr htr]
  dsimp only
  rw [mapM_vecAt_of htrs]
  dsimp only
  rw [vecAt_ok.mpr hd]
  exact r1

/-! ### an example -/

namespace Hex

/-- six cells in the x-y plane around the first one -/
noncomputable def pts : List Vec := [⟨0, 0, 0⟩, ⟨1, 0, 0⟩, ⟨-1, 0, 0⟩, ⟨0, 1, 0⟩, ⟨0, -1, 0⟩, ⟨1, 1, 0⟩]

/-- the polynomial through six values at these positions -/
noncomputable def solve : Solver := fun _ b =>
  match b with
  | [f0, f1, f2, f3, f4, f5] =>
    [f0, (f1 - f2) / 2, (f3 - f4) / 2, (f1 + f2) / 2 - f0, (f3 + f4) / 2 - f0,
      f5 - f0 - (f1 - f2) / 2 - (f3 - f4) / 2 - ((f1 + f2) / 2 - f0) - ((f3 + f4) / 2 - f0)]
  | _ => [0, 0, 0, 0, 0, 0]

noncomputable def A : List (List ℝ) := pts.map (designRow ⟨1, 0, 0⟩ ⟨0, 1, 0⟩ ⟨0, 0, 1⟩ 0)

theorem A_eq : A = [[1, 0, 0, 0, 0, 0], [1, 1, 0, 1, 0, 0], [1, -1, 0, 1, 0, 0], [1, 0, 1, 0, 1, 0], [1, 0, -1, 0, 1, 0], [1, 1, 1, 1, 1, 1]] := by
  simp [A, pts, designRow, Vec.transform, dot]

theorem length_six {l : List ℝ} (h : l.length = 6) : ∃ a b c d e f, l = [a, b, c, d, e, f] := by
  match l, h with
  | [a, b, c, d, e, f], _ => exact ⟨a, b, c, d, e, f, rfl⟩

theorem fullRank : FullRank A := by
  intro y hy h
  obtain ⟨a, b, c, d, e, f, rfl⟩ := length_six hy
  rw [A_eq] at h
  simp [rowDot] at h
  obtain ⟨h1, h2, h3, h4, h5, h6⟩ := h
  intro z hz
  simp only [List.mem_cons, List.not_mem_nil, or_false] at hz
  rcases hz with rfl | rfl | rfl | rfl | rfl | rfl <;> linarith

theorem residual_nonneg (A : List (List ℝ)) (x : List ℝ) : ∀ b, 0 ≤ residual A b x := by
  unfold residual
  induction A with
  | nil => intro b; simp
  | cons r A ih =>
    intro b
    cases b with
    | nil => simp
    | cons c b => simp only [List.zipWith_cons_cons, List.sum_cons]; have := ih b; positivity

theorem leastSquares (b : List ℝ) (h : b.length = 6) : IsLeastSquares A b (solve A b) := by
  obtain ⟨f0, f1, f2, f3, f4, f5, rfl⟩ := length_six h
  refine ⟨rfl, fun y _ => ?_⟩
  have : residual A [f0, f1, f2, f3, f4, f5] (solve A [f0, f1, f2, f3, f4, f5]) = 0 := by
    rw [A_eq]
    simp [residual, solve, rowDot]
    ring
  rw [this]
  exact residual_nonneg _ _ _

/-- a vacuum field with a homogeneous change of the magnetic field -/
noncomputable def E (_ : ℝ) (P : Vec) : Vec := ⟨-P.y, 0, 0⟩
noncomputable def B (t : ℝ) (_ : Vec) : Vec := ⟨0, 0, -t⟩

theorem maxwell (t : ℝ) : VacuumMaxwell E B t 0 0 ⟨0, 0, -1⟩ := by
  have hc : ∀ (a : ℝ) (s : ℝ), HasDerivAt (fun _ : ℝ => a) 0 s := fun a s => hasDerivAt_const s a
  refine ⟨⟨hc _ _, hc _ _, hc _ _⟩, ⟨hc _ _, hc _ _, ?_⟩, 0, ⟨-1, 0, 0⟩, 0, 0, 0, 0, ?_, ?_, by simp, by simp, by ext <;> simp, by ext <;> simp⟩
  · exact (hasDerivAt_id t).neg
  · intro v
    refine ⟨?_, ?_, ?_⟩
    · have : HasDerivAt (fun s : ℝ => -(v.y * s)) (-(v.y * 1)) 0 := ((hasDerivAt_id (0:ℝ)).const_mul v.y).neg
      simpa [E] using this
    · simpa [E] using hc 0 0
    · simpa [E] using hc 0 0
  · intro v
    refine ⟨?_, ?_, ?_⟩
    · simpa [B] using hc 0 0
    · simpa [B] using hc 0 0
    · simpa [B] using hc (-t) 0

/-- a trace with the fields at the position `p` at the times 0 and 1 -/
noncomputable def trace (p : Vec) : FieldTrace := ⟨0, 1, 2, [⟨E 0 p, B 0 p⟩, ⟨E 1 p, B 1 p⟩]⟩

/-- the conditions of the theorem are met for these cells and fields -/
example : ∃ F : EMField, (∀ dn : FieldTrace, dn.WF → 1 < dn.N →
      normalSample solve ⟨1, 0, 0⟩ ⟨0, 1, 0⟩ ⟨0, 0, 1⟩ A ((pts.map trace).map fun tr => tr.transform ⟨1, 0, 0⟩ ⟨0, 1, 0⟩ ⟨0, 0, 1⟩)
        (trace 0) ((⟨0, 1, 2, [⟨0, ⟨0, 0, -1⟩⟩, ⟨0, ⟨0, 0, -1⟩⟩]⟩ : FieldTrace).transform ⟨1, 0, 0⟩ ⟨0, 1, 0⟩ ⟨0, 0, 1⟩) dn 1
        = .ok { dn with trace := dn.trace.set 1 F }) ∧
      HasDirDeriv (E 1) 0 ⟨0, 0, 1⟩ F.E ∧ HasDirDeriv (B 1) 0 ⟨0, 0, 1⟩ F.B := by
  refine C53_sample solve ⟨1, 0, 0⟩ ⟨0, 1, 0⟩ ⟨0, 0, 1⟩ 0 ?_ pts ?_ fullRank (fun b hb => leastSquares b (by simpa [pts] using hb)) _ _ _ 1 1
    (by simp [FieldTrace.getTime, trace]) E B 0 ⟨0, 0, -1⟩ (maxwell 1) ?_ ?_ ?_ (by simp [FieldTrace.getField])
  · simp [RightHanded, dot, cross]
  · intro p hp
    simp only [pts, List.mem_cons, List.not_mem_nil, or_false] at hp
    rcases hp with rfl | rfl | rfl | rfl | rfl | rfl <;> simp [dot]
  · exact ⟨0, 0, ⟨-1, 0, 0⟩, 0, 0, 0, fun x y => by ext <;> simp [E]⟩
  · exact ⟨⟨0, 0, -1⟩, 0, 0, 0, 0, 0, fun x y => by ext <;> simp [B]⟩
  · rw [List.map_map]
    apply List.map_congr_left
    intro p _
    exact C17_sampling_times (trace p) (by norm_num [trace]) 1 _ 1 (by simp [FieldTrace.getField, trace]) (by simp [FieldTrace.getTime, trace])

end Hex

end Teufel
