import Verif.Lemmas.Integrate
import Verif.Props.Interp
import Verif.Props.RetardedField

/-! # C14, C15: recording the radiation of a particle into a field trace

Specification.  The observer sees the field `F k` of trajectory point `k` at the arrival time `R k`.  In between the
field is taken to be linear.  `seenIntegral` is the time integral of one step of that piecewise linear signal over a
time interval. -/

namespace Teufel
open Vec MeasureTheory
namespace Particle

/-- integral over `[A,B]` of component `φ` of the signal that runs linearly from `f1` at `r1` to `f2` at `r2` -/
noncomputable def seenIntegral (φ : EMField → ℝ) (r1 r2 : ℝ) (f1 f2 : EMField) (A B : ℝ) : ℝ :=
  ∫ t in Set.Icc r1 r2 ∩ Set.Icc A B, (φ f1 + (φ f2 - φ f1) * ((t - r1) / (r2 - r1)))

/-- nobody sits on a recorded trajectory point -/
def OffTrajectory (p : Particle) (obs : Vec) : Prop := ∀ i : Nat, ∀ x, p.TrajPoint i = .ok x → obs ≠ x

/-- recording over the first `m` steps -/
theorem record_prefix (p : Particle) (hp : p.Reachable) (hs : p.Subluminal) (obs : Vec) (hoff : p.OffTrajectory obs)
    (R : Nat → ℝ) (F : Nat → EMField) (hR : ∀ k, k < p.NP → p.RetardedTime k obs = .ok (R k))
    (hF : ∀ k, k < p.NP → p.RetardedFieldIdx k obs = .ok (F k)) (t0 dt : ℝ) (hdt : 0 < dt) (n : Nat)
    (tr : FieldTrace) (hw : tr.WF) (htn : tr.N = n) (m : Nat) (hm : m + 1 ≤ p.NP) :
    ∃ tr', (List.range m).foldlM (fun (tr : FieldTrace) (step : Nat) => do
      let ts1 ← p.RetardedTime (step : Nat) obs
      let ts2 ← p.RetardedTime (step + 1 : Nat) obs
      if ts2 > t0 - dt * 0.5 ∧ ts1 < t0 + dt * ((n : ℝ) - 0.5) then do
        let f1 ← p.RetardedFieldIdx (step : Nat) obs
        let f2 ← p.RetardedFieldIdx (step + 1 : Nat) obs
        let adds ← stepAdds t0 dt n ts1 ts2 f1 f2
        adds.foldlM (fun (tr : FieldTrace) (a : Int × EMField) => addInt tr a.1 a.2) tr
      else .ok tr) tr = .ok tr' ∧ tr'.t0 = tr.t0 ∧ tr'.dt = tr.dt ∧ tr'.N = tr.N ∧ tr'.WF ∧
      ∀ φ, IsComponent φ → ∀ i : Nat, i < n →
        φ ((tr'.trace[i]?).getD 0) * dt = φ ((tr.trace[i]?).getD 0) * dt
          + ((List.range m).map fun k => seenIntegral φ (R k) (R (k + 1)) (F k) (F (k + 1))
              (t0 + ((i : ℝ) - 1 / 2) * dt) (t0 + ((i : ℝ) + 1 / 2) * dt)).sum := by
  induction m with
  | zero => exact ⟨tr, rfl, rfl, rfl, rfl, hw, by intros; simp⟩
  | succ m ih =>
    obtain ⟨tr1, e1, e2, e3, e4, e5, e6⟩ := ih (by omega)
    rw [List.range_succ, List.foldlM_append, e1]
    simp only [List.foldlM_cons, List.foldlM_nil]
    rw [hR m (by omega), hR (m + 1) (by omega), hF m (by omega), hF (m + 1) (by omega)]
    have hlt : R m < R (m + 1) := C13_arrival_order p hp hs obs m (m + 1) (by omega) _ _ (hR m (by omega)) (hR (m + 1) (by omega))
    simp only [bind, Except.bind]
    have sumsucc : ∀ (φ : EMField → ℝ) (i : Nat), ((List.range m ++ [m]).map fun k => seenIntegral φ (R k) (R (k + 1)) (F k) (F (k + 1))
              (t0 + ((i : ℝ) - 1 / 2) * dt) (t0 + ((i : ℝ) + 1 / 2) * dt)).sum =
        ((List.range m).map fun k => seenIntegral φ (R k) (R (k + 1)) (F k) (F (k + 1))
              (t0 + ((i : ℝ) - 1 / 2) * dt) (t0 + ((i : ℝ) + 1 / 2) * dt)).sum
          + seenIntegral φ (R m) (R (m + 1)) (F m) (F (m + 1)) (t0 + ((i : ℝ) - 1 / 2) * dt) (t0 + ((i : ℝ) + 1 / 2) * dt) := by
      intro φ i; simp
    by_cases hc : R (m + 1) > t0 - dt * 0.5 ∧ R m < t0 + dt * ((n : ℝ) - 0.5)
    · rw [if_pos hc]
      obtain ⟨adds, a1, a2, a3⟩ := stepAdds_spec t0 dt hdt n (R m) (R (m + 1)) hlt (F m) (F (m + 1)) hc.1 hc.2
      rw [a1]
      obtain ⟨tr2, b1, b2, b3, b4, b5, b6⟩ := adds_ok adds tr1 e5 (by rw [e4, htn]; exact a2)
      refine ⟨tr2, by simp only [b1]; rfl, b2.trans e2, b3.trans e3, b4.trans e4, b5, ?_⟩
      intro φ hφ i hi
      rw [b6 φ hφ i (by omega), add_mul, e6 φ hφ i hi, a3 φ hφ i hi, sumsucc, seenIntegral, bucket_integral]
      ring
    · rw [if_neg hc]
      refine ⟨tr1, rfl, e2, e3, e4, e5, ?_⟩
      intro φ hφ i hi
      rw [e6 φ hφ i hi, sumsucc]
      have hz : seenIntegral φ (R m) (R (m + 1)) (F m) (F (m + 1)) (t0 + ((i : ℝ) - 1 / 2) * dt) (t0 + ((i : ℝ) + 1 / 2) * dt) = 0 := by
        rw [seenIntegral, bucket_integral]
        apply bucketVal_zero
        have hi1 : (i : ℝ) + 1 ≤ n := by exact_mod_cast hi
        have hi0 : (0 : ℝ) ≤ (i : ℝ) := Nat.cast_nonneg i
        rcases not_and_or.mp hc with h | h
        · refine le_trans (min_le_left _ _) (le_trans (not_lt.mp h) (le_trans ?_ (le_max_right _ _)))
          norm_num; nlinarith
        · refine le_trans (min_le_right _ _) (le_trans ?_ (le_trans (not_lt.mp h) (le_max_left _ _)))
          norm_num; nlinarith
      rw [hz]; ring

/-- arrival times and fields exist for all recorded points -/
theorem signal_exists (p : Particle) (hp : p.Reachable) (obs : Vec) (hoff : p.OffTrajectory obs) (k : Nat) (hk : k < p.NP) :
    (∃ r, p.RetardedTime k obs = .ok r) ∧ ∃ f, p.RetardedFieldIdx k obs = .ok f := by
  have hcons := cons_reachable hp
  have ⟨c1, c2, c3, c4⟩ := hcons
  have g1 := TrajTime_of_get hcons (List.getElem?_eq_getElem (show k < p.Time.length by omega))
  have g2 := TrajPoint_of_get hcons (List.getElem?_eq_getElem (show k < p.X.length by omega))
  have g3 := TrajMomentum_of_get hcons (List.getElem?_eq_getElem (show k < p.P.length by omega))
  have g4 := TrajAccel_of_get hcons (List.getElem?_eq_getElem (show k < p.A.length by omega))
  constructor
  · refine ⟨p.Time[k] + Vec.norm (obs - p.X[k]) / SpeedOfLight, ?_⟩
    simp only [Particle.RetardedTime, g1, g2, bind, Except.bind, pure, Except.pure]
  · exact ⟨_, (C12_lienard_wiechert p k _ _ _ g2 g3 g4 obs).1 (hoff k _ g2)⟩

end Particle

/-- C14: recording a subluminal trajectory into a trace with positive time step never raises an index error and
never fails at all for an observer off the recorded points.  Timing and length of the trace stay as they are. -/
theorem C14_no_index_error (p : Particle) (hp : p.Reachable) (hs : p.Subluminal) (obs : Vec) (hoff : p.OffTrajectory obs)
    (tr : FieldTrace) (hw : tr.WF) (hdt : 0 < tr.dt) :
    ∃ tr', p.integrateFieldTrace obs tr = .ok tr' ∧ tr'.t0 = tr.t0 ∧ tr'.dt = tr.dt ∧ tr'.N = tr.N ∧ tr'.trace.length = tr.N := by
  simp only [Particle.integrateFieldTrace]
  by_cases h1 : tr.N < 2
  · rw [if_pos h1]; exact ⟨tr, rfl, rfl, rfl, rfl, hw⟩
  rw [if_neg h1]
  by_cases h2 : p.NP < 2
  · rw [if_pos h2]; exact ⟨tr, rfl, rfl, rfl, rfl, hw⟩
  rw [if_neg h2, if_neg hdt.ne']
  have sig := fun k hk => p.signal_exists hp obs hoff k hk
  obtain ⟨tr', e, t1, t2, t3, t4, -⟩ := p.record_prefix hp hs obs hoff
    (fun k => if h : k < p.NP then Classical.choose (sig k h).1 else 0)
    (fun k => if h : k < p.NP then Classical.choose (sig k h).2 else 0)
    (fun k hk => by simp only [dif_pos hk]; exact Classical.choose_spec (sig k hk).1)
    (fun k hk => by simp only [dif_pos hk]; exact Classical.choose_spec (sig k hk).2)
    tr.t0 tr.dt hdt tr.N tr hw rfl (p.NP - 1) (by omega)
  exact ⟨tr', e, t1, t2, t3, t4.trans t3⟩

/-- C15 (per sample): every sample times dt grows by the integral of the observed signal over its own time bucket
`[t0+(i-1/2)dt, t0+(i+1/2)dt]`.  `φ` is any field component. -/
theorem C15_sample_integral (p : Particle) (hp : p.Reachable) (hs : p.Subluminal) (obs : Vec) (hoff : p.OffTrajectory obs)
    (R : Nat → ℝ) (F : Nat → EMField) (hR : ∀ k, k < p.getNP → p.RetardedTime k obs = .ok (R k))
    (hF : ∀ k, k < p.getNP → p.RetardedFieldIdx k obs = .ok (F k))
    (tr tr' : FieldTrace) (hw : tr.WF) (hdt : 0 < tr.dt) (hN : 2 ≤ tr.N) (h : p.integrateFieldTrace obs tr = .ok tr')
    (φ : EMField → ℝ) (hφ : Particle.IsComponent φ) (i : Nat) (f f' : EMField)
    (hf : tr.getField i = .ok f) (hf' : tr'.getField i = .ok f') :
    φ f' * tr.dt = φ f * tr.dt + ((List.range (p.getNP - 1)).map fun k =>
      Particle.seenIntegral φ (R k) (R (k + 1)) (F k) (F (k + 1))
        (tr.t0 + ((i : ℝ) - 1 / 2) * tr.dt) (tr.t0 + ((i : ℝ) + 1 / 2) * tr.dt)).sum := by
  have hget : ∀ (q : FieldTrace) (g : EMField), q.getField i = .ok g → i < q.N ∧ (q.trace[i]?).getD 0 = g := by
    intro q g hg
    simp only [FieldTrace.getField] at hg
    split at hg
    · simp at hg
    · rename_i hlt
      refine ⟨by omega, ?_⟩
      split at hg
      · rename_i x hx; rw [hx]; injection hg
      · simp at hg
  obtain ⟨hi, rfl⟩ := hget tr f hf
  obtain ⟨-, rfl⟩ := hget tr' f' hf'
  simp only [Particle.getNP] at *
  simp only [Particle.integrateFieldTrace] at h
  rw [if_neg (by omega)] at h
  by_cases h2 : p.NP < 2
  · rw [if_pos h2] at h
    injection h with h
    rw [← h]
    have : p.NP - 1 = 0 := by omega
    rw [this]; simp
  rw [if_neg h2, if_neg hdt.ne'] at h
  obtain ⟨tr2, e, -, -, -, -, e6⟩ := p.record_prefix hp hs obs hoff R F hR hF tr.t0 tr.dt hdt tr.N tr hw rfl (p.NP - 1) (by omega)
  have : tr' = tr2 := by
    have := h.symm.trans e
    injection this
  rw [this]
  exact e6 φ hφ i hi

/-- additivity of the signal integral over adjacent buckets -/
theorem seenIntegral_split (φ : EMField → ℝ) (r1 r2 : ℝ) (f1 f2 : EMField) (a b c : ℝ) (hab : a ≤ b) (hbc : b ≤ c) :
    Particle.seenIntegral φ r1 r2 f1 f2 a c = Particle.seenIntegral φ r1 r2 f1 f2 a b + Particle.seenIntegral φ r1 r2 f1 f2 b c := by
  simp only [Particle.seenIntegral]
  have hu : Set.Icc r1 r2 ∩ Set.Icc a c = (Set.Icc r1 r2 ∩ Set.Icc a b) ∪ (Set.Icc r1 r2 ∩ Set.Ioc b c) := by
    rw [← Set.inter_union_distrib_left, Set.Icc_union_Ioc_eq_Icc hab hbc]
  have hcont : Continuous (fun t : ℝ => φ f1 + (φ f2 - φ f1) * ((t - r1) / (r2 - r1))) := by fun_prop
  have hI : ∀ s : Set ℝ, s ⊆ Set.Icc r1 r2 → IntegrableOn (fun t : ℝ => φ f1 + (φ f2 - φ f1) * ((t - r1) / (r2 - r1))) s := by
    intro s hs
    exact (hcont.integrableOn_Icc).mono_set hs
  rw [hu, setIntegral_union]
  · congr 1
    apply setIntegral_congr_set
    exact (ae_eq_refl _).inter Ioc_ae_eq_Icc
  · rw [Set.disjoint_left]
    rintro x ⟨-, hx⟩ ⟨-, hy⟩
    exact absurd hx.2 (not_le.mpr hy.1)
  · exact measurableSet_Icc.inter measurableSet_Ioc
  · exact hI _ Set.inter_subset_left
  · exact hI _ Set.inter_subset_left

/-- the buckets tile the observation window -/
theorem seenIntegral_tile (φ : EMField → ℝ) (r1 r2 : ℝ) (f1 f2 : EMField) (t0 dt : ℝ) (hdt : 0 < dt) (n : Nat) :
    ((List.range n).map fun (i : Nat) => Particle.seenIntegral φ r1 r2 f1 f2 (t0 + ((i : ℝ) - 1 / 2) * dt) (t0 + ((i : ℝ) + 1 / 2) * dt)).sum
      = Particle.seenIntegral φ r1 r2 f1 f2 (t0 - dt / 2) (t0 + ((n : ℝ) - 1 / 2) * dt) := by
  induction n with
  | zero =>
    simp only [List.range_zero, List.map_nil, List.sum_nil, Particle.seenIntegral]
    rw [Particle.bucket_integral, Particle.bucketVal_zero]
    refine le_trans (min_le_right _ _) (le_trans (le_of_eq ?_) (le_max_right _ _))
    push_cast; ring
  | succ n ih =>
    rw [List.range_succ, List.map_append, List.sum_append, ih]
    simp only [List.map_cons, List.map_nil, List.sum_cons, List.sum_nil, add_zero]
    have hn : (0 : ℝ) ≤ n := Nat.cast_nonneg n
    rw [seenIntegral_split φ r1 r2 f1 f2 (t0 - dt / 2) (t0 + ((n : ℝ) - 1 / 2) * dt) (t0 + (((n + 1 : Nat) : ℝ) - 1 / 2) * dt)
      (by nlinarith) (by push_cast; nlinarith)]
    congr 2
    push_cast; ring

/-- C15: the sum of all samples times dt grows by exactly the time integral, over the whole observation window
`[t0-dt/2, t0+(n-1/2)dt]`, of the piecewise linear signal seen by the observer. -/
theorem C15_conservation (p : Particle) (hp : p.Reachable) (hs : p.Subluminal) (obs : Vec) (hoff : p.OffTrajectory obs)
    (R : Nat → ℝ) (F : Nat → EMField) (hR : ∀ k, k < p.getNP → p.RetardedTime k obs = .ok (R k))
    (hF : ∀ k, k < p.getNP → p.RetardedFieldIdx k obs = .ok (F k))
    (tr : FieldTrace) (hw : tr.WF) (hdt : 0 < tr.dt) (hN : 2 ≤ tr.N) :
    ∃ tr', p.integrateFieldTrace obs tr = .ok tr' ∧ ∀ φ, Particle.IsComponent φ →
      (tr'.trace.map φ).sum * tr.dt = (tr.trace.map φ).sum * tr.dt + ((List.range (p.getNP - 1)).map fun k =>
        Particle.seenIntegral φ (R k) (R (k + 1)) (F k) (F (k + 1))
          (tr.t0 - tr.dt / 2) (tr.t0 + ((tr.N : ℝ) - 1 / 2) * tr.dt)).sum := by
  obtain ⟨tr', h, t1, t2, t3, t4⟩ := C14_no_index_error p hp hs obs hoff tr hw hdt
  refine ⟨tr', h, fun φ hφ => ?_⟩
  have sumform : ∀ l : List EMField, (l.map φ).sum = ((List.range l.length).map fun i => φ ((l[i]?).getD 0)).sum := by
    intro l
    congr 1
    apply List.ext_getElem
    · simp
    · intro i h1 h2
      simp at h1
      simp [h1]
  have hlen : tr.trace.length = tr.N := hw
  rw [sumform, sumform, t4, hlen]
  have each : ∀ i, i < tr.N → φ ((tr'.trace[i]?).getD 0) * tr.dt = φ ((tr.trace[i]?).getD 0) * tr.dt + ((List.range (p.getNP - 1)).map fun k =>
      Particle.seenIntegral φ (R k) (R (k + 1)) (F k) (F (k + 1))
        (tr.t0 + ((i : ℝ) - 1 / 2) * tr.dt) (tr.t0 + ((i : ℝ) + 1 / 2) * tr.dt)).sum := by
    intro i hi
    refine C15_sample_integral p hp hs obs hoff R F hR hF tr tr' hw hdt hN h φ hφ i _ _ ?_ ?_
    · simp only [FieldTrace.getField]
      rw [if_neg (by omega), List.getElem?_eq_getElem (by omega)]; rfl
    · simp only [FieldTrace.getField]
      rw [if_neg (by omega), List.getElem?_eq_getElem (by omega)]; rfl
  -- sum over the samples
  have main : ∀ n, n ≤ tr.N → ((List.range n).map fun i => φ ((tr'.trace[i]?).getD 0)).sum * tr.dt
      = ((List.range n).map fun i => φ ((tr.trace[i]?).getD 0)).sum * tr.dt +
        ((List.range (p.getNP - 1)).map fun k => ((List.range n).map fun (i : Nat) => Particle.seenIntegral φ (R k) (R (k + 1)) (F k) (F (k + 1))
          (tr.t0 + ((i : ℝ) - 1 / 2) * tr.dt) (tr.t0 + ((i : ℝ) + 1 / 2) * tr.dt)).sum).sum := by
    intro n
    induction n with
    | zero => intro _; simp
    | succ n ih =>
      intro hn
      simp only [List.range_succ (n := n), List.map_append, List.sum_append, List.map_cons, List.map_nil, List.sum_cons, List.sum_nil, add_zero]
      rw [List.sum_map_add, add_mul, add_mul, ih (by omega), each n (by omega)]
      ring
  rw [main tr.N (le_refl _)]
  congr 3
  funext k
  exact seenIntegral_tile φ _ _ _ _ _ _ hdt _

/-- C15, boundary: a window of less than two samples, or a trajectory with less than two points, is left untouched -/
theorem C15_nothing_to_record (p : Particle) (obs : Vec) (tr : FieldTrace) (h : tr.N < 2 ∨ p.getNP < 2) :
    p.integrateFieldTrace obs tr = .ok tr := by
  simp only [Particle.getNP] at h
  simp only [Particle.integrateFieldTrace]
  by_cases h1 : tr.N < 2
  · rw [if_pos h1]
  · rw [if_neg h1, if_pos (by omega)]

/-- non-vacuity: a two-point trajectory, an observer off it and a three-sample trace meet all hypotheses -/
example : ∃ (p : Particle) (obs : Vec) (tr : FieldTrace), p.Reachable ∧ p.Subluminal ∧ p.OffTrajectory obs ∧ p.getNP = 2 ∧
    tr.WF ∧ 0 < tr.dt ∧ 2 ≤ tr.N := by
  refine ⟨demoParticle, ⟨1, 0, 0⟩, ⟨0, 1, 3, [0, 0, 0]⟩, demoParticle_ok.1, demoParticle_ok.2.2.2, ?_, demoParticle_ok.2.1, rfl, by norm_num, by norm_num⟩
  intro i x hx
  have hx' := get_of_TrajPoint hx
  simp [demoParticle, POp.exec, POp.result, Particle.initTrajectory, Particle.storeTrajectoryPoint] at hx'
  match i with
  | 0 => simp at hx'; rw [← hx']; intro h; have := congrArg Vec.x h; simp at this
  | 1 => simp at hx'; rw [← hx']; intro h; have := congrArg Vec.x h; simp at this
  | i + 2 => simp at hx'

/-- every electric and magnetic component qualifies -/
theorem component_Ex : Particle.IsComponent (fun f => f.E.x) := ⟨fun _ _ => rfl, fun _ _ => rfl⟩
theorem component_Ey : Particle.IsComponent (fun f => f.E.y) := ⟨fun _ _ => rfl, fun _ _ => rfl⟩
theorem component_Ez : Particle.IsComponent (fun f => f.E.z) := ⟨fun _ _ => rfl, fun _ _ => rfl⟩
theorem component_Bx : Particle.IsComponent (fun f => f.B.x) := ⟨fun _ _ => rfl, fun _ _ => rfl⟩
theorem component_By : Particle.IsComponent (fun f => f.B.y) := ⟨fun _ _ => rfl, fun _ _ => rfl⟩
theorem component_Bz : Particle.IsComponent (fun f => f.B.z) := ⟨fun _ _ => rfl, fun _ _ => rfl⟩

end Teufel
