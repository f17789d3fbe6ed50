import Verif.Lemmas.Retarded
import Verif.Props.Vay

/-! # C10: coordinates at intermediate times; C13: arrival order -/

namespace Teufel
open Vec

/-- the recorded times increase -/
def Particle.IncreasingTimes (p : Particle) : Prop :=
  ∀ i j : Nat, i < j → ∀ a b, p.TrajTime i = .ok a → p.TrajTime j = .ok b → a < b

/-- specification: the point at fraction `s` on the straight line from `a` to `b` -/
noncomputable def lerp (a b : Vec) (s : ℝ) : Vec := a + (b - a) * s

/-- C10: without a trajectory the result is zero. -/
theorem C10_no_trajectory (p : Particle) (h : p.getNP = 0) (time : ℝ) : p.CoordinatesAtTime time = .ok (0, 0) := by
  simp only [Particle.getNP] at h
  simp only [Particle.CoordinatesAtTime]
  rw [if_pos (by omega)]

/-- C10: outside the recorded interval the result is zero. -/
theorem C10_outside (p : Particle) (hp : p.Reachable) (hn : 1 ≤ p.getNP) (time a b : ℝ)
    (ha : p.TrajTime 0 = .ok a) (hb : p.TrajTime (p.getNP - 1 : Nat) = .ok b) (ho : time < a ∨ b < time) :
    p.CoordinatesAtTime time = .ok (0, 0) := by
  simp only [Particle.getNP] at *
  have ha' := Particle.vecAt_of_get (get_of_TrajTime (n := 0) ha)
  have hb' := Particle.vecAt_of_get (get_of_TrajTime hb)
  simp only [Particle.CoordinatesAtTime]
  rw [if_neg (by omega), ha', hb']
  simp only [bind, Except.bind]
  rw [if_neg]
  rintro ⟨h1, h2⟩
  rcases ho with h | h <;> linarith

/-- C10: at the time of a one-point trajectory the result is that point. -/
theorem C10_single_point (p : Particle) (hn : p.getNP = 1) (time : ℝ) (x m : Vec)
    (ht : p.TrajTime 0 = .ok time) (hx : p.TrajPoint 0 = .ok x) (hm : p.TrajMomentum 0 = .ok m) :
    p.CoordinatesAtTime time = .ok (x, m) := by
  simp only [Particle.getNP] at *
  have ht' := Particle.vecAt_of_get (get_of_TrajTime (n := 0) ht)
  have hx' := Particle.vecAt_of_get (get_of_TrajPoint (n := 0) hx)
  have hm' := Particle.vecAt_of_get (get_of_TrajMomentum (n := 0) hm)
  simp only [Particle.CoordinatesAtTime]
  rw [if_neg (by omega), hn]
  simp only [Nat.sub_self, ht', bind, Except.bind]
  rw [if_pos ⟨le_refl _, le_refl _⟩, Particle.bisect_self]
  simp only [ht', hx', hm', if_true]

/-- C10: between two consecutive recorded points the result is the linear interpolation of position and
momentum; the search always terminates with an answer. -/
theorem C10_interpolation (p : Particle) (hp : p.Reachable) (hinc : p.IncreasingTimes) (i : Nat) (time a b : ℝ)
    (ha : p.TrajTime i = .ok a) (hb : p.TrajTime (i + 1 : Nat) = .ok b) (h1 : a ≤ time) (h2 : time ≤ b)
    (x y m n : Vec) (hx : p.TrajPoint i = .ok x) (hy : p.TrajPoint (i + 1 : Nat) = .ok y)
    (hm : p.TrajMomentum i = .ok m) (hn : p.TrajMomentum (i + 1 : Nat) = .ok n) :
    p.CoordinatesAtTime time = .ok (lerp x y ((time - a) / (b - a)), lerp m n ((time - a) / (b - a))) := by
  have hcons := cons_reachable hp
  have ⟨c1, c2, c3, c4⟩ := hcons
  have gb := get_of_TrajTime hb
  have ga := get_of_TrajTime ha
  have hlt : i + 1 < p.NP := by rw [← c1]; exact (List.getElem?_eq_some_iff.mp gb).1
  -- total view of the times
  let T : Nat → ℝ := fun k => (p.Time[k]?).getD 0
  have hT : ∀ k, k < p.NP → p.Time[k]? = some (T k) := by
    intro k hk; simp only [T]; rw [List.getElem?_eq_getElem (by omega)]; rfl
  have hTm : ∀ k l, k < l → l < p.NP → T k < T l := by
    intro k l hkl hl
    exact hinc k l hkl _ _ (TrajTime_of_get hcons (hT k (by omega))) (TrajTime_of_get hcons (hT l hl))
  have hTle : ∀ k l, k ≤ l → l < p.NP → T k ≤ T l := by
    intro k l hkl hl
    rcases Nat.lt_or_ge k l with h | h
    · exact (hTm k l h hl).le
    · have : k = l := by omega
      rw [this]
  have ea : T i = a := by simp only [T, ga]; rfl
  have eb : T (i + 1) = b := by simp only [T, gb]; rfl
  simp only [Particle.CoordinatesAtTime]
  rw [if_neg (by omega), Particle.vecAt_of_get (hT 0 (by omega)), Particle.vecAt_of_get (hT (p.NP - 1) (by omega))]
  simp only [bind, Except.bind]
  have r1 : time ≥ T 0 := le_trans (hTle 0 i (by omega) (by omega)) (by rw [ea]; exact h1)
  have r2 : time ≤ T (p.NP - 1) := le_trans (by rw [eb]; exact h2) (hTle (i + 1) (p.NP - 1) (by omega) (by omega))
  rw [if_pos ⟨r1, r2⟩]
  obtain ⟨j, hj, j1, j2, j3, j4⟩ := Particle.bisect_spec
    (fun k => (Particle.vecAt p.Time k).map (fun t => decide (t < time))) (fun k => decide (T k < time)) 0 (p.NP - 1) (by omega)
    (by intro k _ hk; rw [Particle.vecAt_of_get (hT k (by omega))]; rfl)
  rw [hj]
  have gX : ∀ k, k < p.NP → p.X[k]? = some ((p.X[k]?).getD 0) := by
    intro k hk; rw [List.getElem?_eq_getElem (by omega)]; rfl
  have gP : ∀ k, k < p.NP → p.P[k]? = some ((p.P[k]?).getD 0) := by
    intro k hk; rw [List.getElem?_eq_getElem (by omega)]; rfl
  simp only
  rw [Particle.vecAt_of_get (hT j (by omega)), Particle.vecAt_of_get (hT (j + 1) (by omega)),
    Particle.vecAt_of_get (gX j (by omega)), Particle.vecAt_of_get (gP j (by omega)),
    Particle.vecAt_of_get (gX (j + 1) (by omega)), Particle.vecAt_of_get (gP (j + 1) (by omega))]
  simp only
  have hjm := hTm j (j + 1) (by omega) (by omega)
  rw [if_neg (by omega), if_neg (by linarith)]
  have tj1 : T j ≤ time := by
    rcases j3 with h | h
    · rw [h]; exact r1
    · exact (of_decide_eq_true h).le
  have tj2 : time ≤ T (j + 1) := by
    rcases j4 with h | h
    · rw [h]; exact r2
    · have := of_decide_eq_false h; linarith
  have lerp_form : ∀ (u v : Vec) (s : ℝ), u * (1 - s) + v * s = lerp u v s := by
    intro u v s; simp only [lerp]; ext <;> simp <;> ring
  rcases Nat.lt_trichotomy i j with hij | hij | hij
  · -- i < j : then time = T j, and j > 0 contradicts T j < time
    exfalso
    have hTj : T j < time := by
      rcases j3 with h | h
      · omega
      · exact of_decide_eq_true h
    have := hTle (i + 1) j (by omega) (by omega)
    rw [eb] at this; linarith
  · subst hij
    rw [get_of_TrajPoint hx, get_of_TrajPoint hy, get_of_TrajMomentum hm, get_of_TrajMomentum hn, ea, eb]
    simp only [Option.getD_some]
    rw [lerp_form, lerp_form]
  · -- j < i : then i = j+1 and time = T i
    have h3 := hTle (j + 1) i (by omega) (by omega)
    have ht : time = a := by rw [ea] at h3; linarith
    have hi : i = j + 1 := by
      by_contra hne
      have := hTm (j + 1) i (by omega) (by omega)
      rw [ea] at this; linarith
    subst hi
    rw [get_of_TrajPoint hx, get_of_TrajMomentum hm]
    simp only [Option.getD_some]
    have e1 : (time - T j) / (T (j + 1) - T j) = 1 := by
      rw [ea, ← ht]; apply div_self; linarith [ea]
    rw [e1, ht]
    congr 2
    · simp only [lerp]; ext <;> simp
    · simp only [lerp]; ext <;> simp

/-- C10: a trajectory with increasing times gives coordinates for every time. -/
theorem C10_defined (p : Particle) (hp : p.Reachable) (hinc : p.IncreasingTimes) (time : ℝ) : ∃ c, p.CoordinatesAtTime time = .ok c := by
  have hcons := cons_reachable hp
  have ⟨c1, c2, c3, c4⟩ := hcons
  by_cases h0 : p.NP < 1
  · exact ⟨_, C10_no_trajectory p (by show p.NP = 0; omega) time⟩
  let T : Nat → ℝ := fun k => (p.Time[k]?).getD 0
  have hT : ∀ k, k < p.NP → p.Time[k]? = some (T k) := by
    intro k hk; simp only [T]; rw [List.getElem?_eq_getElem (by omega)]; rfl
  have gX : ∀ k, k < p.NP → p.X[k]? = some ((p.X[k]?).getD 0) := by
    intro k hk; rw [List.getElem?_eq_getElem (by omega)]; rfl
  have gP : ∀ k, k < p.NP → p.P[k]? = some ((p.P[k]?).getD 0) := by
    intro k hk; rw [List.getElem?_eq_getElem (by omega)]; rfl
  simp only [Particle.CoordinatesAtTime]
  rw [if_neg h0, Particle.vecAt_of_get (hT 0 (by omega)), Particle.vecAt_of_get (hT (p.NP - 1) (by omega))]
  simp only [bind, Except.bind]
  split_ifs with hin
  · by_cases h1 : p.NP = 1
    · rw [h1, Nat.sub_self, Particle.bisect_self]
      simp only [Particle.vecAt_of_get (hT 0 (by omega)), Particle.vecAt_of_get (gX 0 (by omega)), Particle.vecAt_of_get (gP 0 (by omega)), if_true]
      exact ⟨_, rfl⟩
    · obtain ⟨j, hj, j1, j2, -, -⟩ := Particle.bisect_spec
        (fun k => (Particle.vecAt p.Time k).map (fun t => decide (t < time))) (fun k => decide (T k < time)) 0 (p.NP - 1) (by omega)
        (by intro k _ hk; rw [Particle.vecAt_of_get (hT k (by omega))]; rfl)
      rw [hj]
      simp only
      rw [Particle.vecAt_of_get (hT j (by omega)), Particle.vecAt_of_get (hT (j + 1) (by omega)),
        Particle.vecAt_of_get (gX j (by omega)), Particle.vecAt_of_get (gP j (by omega)),
        Particle.vecAt_of_get (gX (j + 1) (by omega)), Particle.vecAt_of_get (gP (j + 1) (by omega))]
      simp only
      have hjm := hinc j (j + 1) (by omega) _ _ (TrajTime_of_get hcons (hT j (by omega))) (TrajTime_of_get hcons (hT (j + 1) (by omega)))
      rw [if_neg (by omega), if_neg (by linarith)]
      exact ⟨_, rfl⟩
  · exact ⟨_, rfl⟩

/-- C10: at a recorded time the recorded point is returned exactly. -/
theorem C10_stored_point (p : Particle) (hp : p.Reachable) (hinc : p.IncreasingTimes) (i : Nat) (t : ℝ) (x m : Vec)
    (ht : p.TrajTime i = .ok t) (hx : p.TrajPoint i = .ok x) (hm : p.TrajMomentum i = .ok m) :
    p.CoordinatesAtTime t = .ok (x, m) := by
  have hcons := cons_reachable hp
  have ⟨c1, c2, c3, c4⟩ := hcons
  have hi : i < p.NP := by rw [← c1]; exact (List.getElem?_eq_some_iff.mp (get_of_TrajTime ht)).1
  by_cases h1 : i + 1 < p.NP
  · have g1 := TrajTime_of_get hcons (List.getElem?_eq_getElem (show i + 1 < p.Time.length by omega))
    have g2 := TrajPoint_of_get hcons (List.getElem?_eq_getElem (show i + 1 < p.X.length by omega))
    have g3 := TrajMomentum_of_get hcons (List.getElem?_eq_getElem (show i + 1 < p.P.length by omega))
    have hl := hinc i (i + 1) (by omega) _ _ ht g1
    rw [C10_interpolation p hp hinc i t t _ ht g1 (le_refl _) hl.le x _ m _ hx g2 hm g3]
    simp only [sub_self, zero_div, lerp]
    congr 2 <;> (ext <;> simp)
  · by_cases h0 : i = 0
    · subst h0
      exact C10_single_point p (by simp only [Particle.getNP]; omega) t x m ht hx hm
    · obtain ⟨k, rfl⟩ : ∃ k, i = k + 1 := ⟨i - 1, by omega⟩
      have g1 := TrajTime_of_get hcons (List.getElem?_eq_getElem (show k < p.Time.length by omega))
      have g2 := TrajPoint_of_get hcons (List.getElem?_eq_getElem (show k < p.X.length by omega))
      have g3 := TrajMomentum_of_get hcons (List.getElem?_eq_getElem (show k < p.P.length by omega))
      have hl := hinc k (k + 1) (by omega) _ _ g1 ht
      rw [C10_interpolation p hp hinc k t _ t g1 ht hl.le (le_refl _) _ x _ m g2 hx g3 hm]
      rw [div_self (by linarith)]
      simp only [lerp]
      congr 2 <;> (ext <;> simp)

/-- consecutive points are closer than light travels -/
def Particle.Subluminal (p : Particle) : Prop :=
  ∀ i : Nat, ∀ t u x y, p.TrajTime i = .ok t → p.TrajTime (i + 1 : Nat) = .ok u →
    p.TrajPoint i = .ok x → p.TrajPoint (i + 1 : Nat) = .ok y → Vec.norm (y - x) < SpeedOfLight * (u - t)

/-- C13: for a subluminal trajectory the arrival times at any observer strictly increase with the index. -/
theorem C13_arrival_order (p : Particle) (hp : p.Reachable) (hs : p.Subluminal) (obs : Vec) (i j : Nat) (hij : i < j)
    (ri rj : ℝ) (hi : p.RetardedTime i obs = .ok ri) (hj : p.RetardedTime j obs = .ok rj) : ri < rj := by
  have hcons := cons_reachable hp
  have ⟨c1, c2, c3, c4⟩ := hcons
  have hc := SpeedOfLight_pos
  have get : ∀ (k : Nat) (r : ℝ), p.RetardedTime k obs = .ok r → ∃ t x, p.TrajTime k = .ok t ∧ p.TrajPoint k = .ok x ∧
      r = t + Vec.norm (obs - x) / SpeedOfLight := by
    intro k r h
    simp only [Particle.RetardedTime, bind, Except.bind, pure, Except.pure] at h
    cases ht : p.TrajTime k with
    | error e => rw [ht] at h; simp at h
    | ok t =>
      cases hx : p.TrajPoint k with
      | error e => rw [ht, hx] at h; simp at h
      | ok x => rw [ht, hx] at h; simp only at h; injection h with h; exact ⟨t, x, rfl, rfl, h.symm⟩
  have one : ∀ (k : Nat) (r s : ℝ), p.RetardedTime k obs = .ok r → p.RetardedTime (k + 1 : Nat) obs = .ok s → r < s := by
    intro k r s h1 h2
    obtain ⟨t, x, t1, x1, rfl⟩ := get k r h1
    obtain ⟨u, y, u1, y1, rfl⟩ := get _ s h2
    have h := hs k t u x y t1 u1 x1 y1
    have tri := Vec.norm_sub_le obs y x
    have : Vec.norm (obs - x) / SpeedOfLight < (u - t) + Vec.norm (obs - y) / SpeedOfLight := by
      rw [div_lt_iff₀ hc, add_mul, div_mul_cancel₀ _ hc.ne']
      nlinarith
    linarith
  have hjl : j < p.NP := by
    obtain ⟨t, x, t1, -, -⟩ := get j rj hj
    rw [← c1]; exact (List.getElem?_eq_some_iff.mp (get_of_TrajTime t1)).1
  have ex : ∀ k, k < p.NP → ∃ r, p.RetardedTime k obs = .ok r := by
    intro k hk
    have g1 := TrajTime_of_get hcons (List.getElem?_eq_getElem (show k < p.Time.length by omega))
    have g2 := TrajPoint_of_get hcons (List.getElem?_eq_getElem (show k < p.X.length by omega))
    refine ⟨p.Time[k] + Vec.norm (obs - p.X[k]) / SpeedOfLight, ?_⟩
    simp only [Particle.RetardedTime, g1, g2, bind, Except.bind, pure, Except.pure]
  -- induction on the distance
  induction j, hij using Nat.le_induction generalizing rj with
  | base => exact one i ri rj hi hj
  | succ k hk ih =>
    obtain ⟨r, hr⟩ := ex k (by omega)
    exact lt_trans (ih r hr (by omega)) (one k r rj hr hj)

/-- C13: the tracker produces subluminal trajectories: arrival times of points recorded during any Vay run
starting from a one-point particle strictly increase, for every observer. -/
theorem C13_tracked (p p1 p2 : Particle) (hp : p.Reachable) (h1p : p.getNP = 1) (dt : ℝ) (hdt : 0 < dt) (f0 : FieldFn)
    (fs : List FieldFn) (h1 : p.InitVay dt f0 = .ok p1) (h2 : p1.steps fs = .ok p2) :
    p2.Subluminal ∧ p2.IncreasingTimes := by
  have hcons := cons_reachable hp
  have hg : ∃ t0, p.TrajTime (p.getNP - 1 : Nat) = .ok t0 := by
    rw [h1p]
    exact ⟨_, TrajTime_of_get hcons (List.getElem?_eq_getElem (show 0 < p.Time.length by
      have := hcons.1; simp only [Particle.getNP] at h1p; omega))⟩
  obtain ⟨t0, ht0⟩ := hg
  obtain ⟨e1, e2, -⟩ := C05_equidistant p p1 p2 hp dt f0 fs t0 ht0 h1 h2
  have c2 : p2.Cons := (Particle.steps_facts h2).1 (Particle.cons_init hcons h1)
  rw [h1p] at e1 e2
  simp only [Nat.sub_self, Nat.zero_add] at e2
  have bound : ∀ (k : Nat) (t : ℝ), p2.TrajTime k = .ok t → k ≤ fs.length ∧ t = t0 + k * dt := by
    intro k t hk
    have := (List.getElem?_eq_some_iff.mp (get_of_TrajTime hk)).1
    rw [c2.1] at this
    simp only [Particle.getNP] at e1
    have hk2 : k ≤ fs.length := by omega
    rw [e2 k hk2] at hk
    injection hk with hk
    exact ⟨hk2, hk.symm⟩
  constructor
  · intro i t u x y ht hu hx hy
    obtain ⟨b1, rfl⟩ := bound i t ht
    obtain ⟨b2, rfl⟩ := bound (i + 1) u hu
    obtain ⟨x', y', hx', hy', hl⟩ := C02_subluminal p p1 p2 hp dt hdt f0 fs h1 h2 i (by omega) (by omega)
    rw [hx] at hx'; injection hx' with hx'
    rw [hy] at hy'; injection hy' with hy'
    rw [hx', hy']
    push_cast
    have : t0 + (↑i + 1) * dt - (t0 + ↑i * dt) = dt := by ring
    rw [this]; exact hl
  · intro i j hij a b ha hb
    obtain ⟨_, rfl⟩ := bound i a ha
    obtain ⟨_, rfl⟩ := bound j b hb
    have : (i : ℝ) < j := by exact_mod_cast hij
    nlinarith

/-- non-vacuity: a particle with two points -/
noncomputable def demoParticle : Particle :=
  [POp.init 0 0 ⟨0,0,1⟩ 0, .store 1 ⟨0,0,1⟩ ⟨0,0,1⟩ 0].foldl POp.exec Particle.default

/-- non-vacuity: a particle with two points satisfying both hypotheses -/
theorem demoParticle_ok : demoParticle.Reachable ∧ demoParticle.getNP = 2 ∧ demoParticle.IncreasingTimes ∧ demoParticle.Subluminal := by
  refine ⟨⟨_, _, Or.inr (Or.inr (Or.inl rfl)), rfl⟩, rfl, ?_, ?_⟩
  · intro i j hij a b ha hb
    have hb' := get_of_TrajTime hb
    have ha' := get_of_TrajTime ha
    simp [demoParticle, POp.exec, POp.result, Particle.initTrajectory, Particle.storeTrajectoryPoint] at ha' hb'
    have hj : j < 2 := by simpa using (List.getElem?_eq_some_iff.mp hb').1
    obtain rfl : j = 1 := by omega
    obtain rfl : i = 0 := by omega
    simp at ha' hb'; rw [← ha', ← hb']; norm_num
  · intro i t u x y ht hu hx hy
    have ht' := get_of_TrajTime ht
    have hu' := get_of_TrajTime hu
    have hx' := get_of_TrajPoint hx
    have hy' := get_of_TrajPoint hy
    simp [demoParticle, POp.exec, POp.result, Particle.initTrajectory, Particle.storeTrajectoryPoint] at ht' hu' hx' hy'
    match i with
    | 0 =>
      simp at ht' hu' hx' hy'
      rw [← ht', ← hu', ← hx', ← hy']
      have : Vec.norm ((⟨0,0,1⟩ : Vec) - 0) = 1 := by simp [Vec.norm]
      rw [this]; simp [SpeedOfLight]; norm_num
    | i + 1 => simp at hu'

end Teufel
