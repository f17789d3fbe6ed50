import Verif.Props.Statistics
import Verif.Props.Calculator
import Verif.Lemmas.SourceScreen
import Mathlib.Tactic.IntervalCases

/-!
# C64: charge and energy of the particles made from the input file
-/

namespace Teufel
open Vec

theorem betaGamma_ok {g : ℝ} (h : 1 ≤ g) : Lib.betaGamma g = .ok (Real.sqrt (g * g - 1)) := by
  unfold Lib.betaGamma
  rw [if_neg]
  nlinarith

theorem chargeMass_ok {q c : ℝ} (hq : q ≠ 0) (hc : c ≠ 0) : Lib.chargeMass q c = .ok (q, q / c) := by
  unfold Lib.chargeMass
  rw [if_neg (by tauto)]

theorem elementaryCharge_ne : ElementaryCharge ≠ 0 := by unfold ElementaryCharge; norm_num

theorem gamma_of_direction {dir : Vec} (hd : dir ≠ 0) {g : ℝ} (h : 1 ≤ g) :
    Real.sqrt (1 + (dir.normalize * Real.sqrt (g * g - 1)).norm ^ 2) = g := by
  have h1 : (dir.normalize * Real.sqrt (g * g - 1)).norm ^ 2 = g * g - 1 := by
    rw [norm_def, Real.sq_sqrt (abs2nd_nonneg _)]
    have e : (dir.normalize * Real.sqrt (g * g - 1)).abs2nd = dir.normalize.abs2nd * (Real.sqrt (g * g - 1)) ^ 2 := by
      simp [abs2nd]; ring
    rw [e, normalize_abs2nd hd, Real.sq_sqrt (by nlinarith), one_mul]
  rw [h1]
  have : 1 + (g * g - 1) = g ^ 2 := by ring
  rw [this, Real.sqrt_sq (by linarith)]

theorem charge_of_consists {b : Bunch} (hb : b.Reachable) {n : Nat} {ps : Nat → Particle} (h : b.Consists n ps) :
    b.getTotalCharge = .ok (∑ i ∈ Finset.range n, (ps i).getCharge) := by
  have hw := Bunch.wf_reachable hb
  obtain ⟨h1, h2⟩ := consists_list hw h
  unfold Bunch.getTotalCharge
  rw [visited_all hw.1, h2]
  show Except.ok _ = _
  rw [← foldl_range_sum (fun p => p.getCharge)]

/-- **C64** (particle): the bunch made from a `<particle>` entry consists of one particle with the given charge, charge-to-mass ratio and energy,
starting at the given time and position in the given direction.  Missing from the full statement: no charge, charge-to-mass
ratio 0 and no direction are excluded, see `C64_full_statement_false`. -/
theorem C64_particle_partial (gamma charge cmr t0 : ℝ) (pos dir : Vec) (hg : 1 ≤ gamma) (hq : charge ≠ 0) (hc : cmr ≠ 0) (hd : dir ≠ 0) :
    ∃ (b : Bunch) (p : Particle), Lib.singleParticle gamma charge cmr t0 pos dir = .ok b ∧ b.Reachable ∧ b.Consists 1 (fun _ => p) ∧
      b.getTotalCharge = .ok charge ∧ p.Charge / p.Mass = cmr ∧ b.avgGamma = .ok gamma ∧
      p.getNP = 1 ∧ p.TrajTime 0 = .ok t0 ∧ p.TrajPoint 0 = .ok pos ∧ (∃ k : ℝ, 0 ≤ k ∧ p.TrajMomentum 0 = .ok (dir * k)) ∧ p.TrajAccel 0 = .ok 0 := by
  have he := elementaryCharge_ne
  have hq' : charge / ElementaryCharge ≠ 0 := div_ne_zero hq he
  obtain ⟨p, hp⟩ : ∃ p, p = (Particle.new (charge / ElementaryCharge) (charge / ElementaryCharge / cmr)).initTrajectory t0 pos
      (dir.normalize * Real.sqrt (gamma * gamma - 1)) 0 := ⟨_, rfl⟩
  have hb : Lib.singleParticle gamma charge cmr t0 pos dir = .ok (Bunch.empty.Add p) := by
    unfold Lib.singleParticle
    rw [betaGamma_ok hg, chargeMass_ok hq' hc, normalizeE_of_ne hd, hp]
    rfl
  have hr : (Bunch.empty.Add p).Reachable := .Add p .empty (by rw [hp]; exact ⟨Particle.new _ _, [.init t0 pos _ 0], .inl ⟨_, _, rfl⟩, rfl⟩)
  have hcons : (Bunch.empty.Add p).Consists 1 (fun _ => p) := by
    refine ⟨rfl, fun i hi => ?_⟩
    obtain rfl : i = 0 := by omega
    rfl
  refine ⟨_, p, hb, hr, hcons, ?_, ?_, ?_, ?_⟩
  · rw [charge_of_consists hr hcons, Finset.sum_range_one, hp]
    show Except.ok (charge / ElementaryCharge * ElementaryCharge) = _
    rw [div_mul_cancel₀ _ he]
  · rw [hp]
    show charge / ElementaryCharge / (charge / ElementaryCharge / cmr) = cmr
    field_simp
  · obtain ⟨-, -, -, g, h1, h2, -⟩ := C69_averages _ hr 1 one_pos _ hcons
    rw [h1, h2, Finset.sum_range_one, hp]
    show Except.ok (Real.sqrt (1 + (dir.normalize * Real.sqrt (gamma * gamma - 1)).norm ^ 2) / ((1 : Nat) : ℝ)) = _
    rw [gamma_of_direction hd hg]
    simp
  · rw [hp]
    refine ⟨rfl, rfl, rfl, ⟨Real.sqrt (gamma * gamma - 1) / dir.norm, div_nonneg (Real.sqrt_nonneg _) (Real.sqrt_nonneg _), ?_⟩, rfl⟩
    show Except.ok (dir.normalize * Real.sqrt (gamma * gamma - 1)) = _
    congr 1
    ext <;> simp [Vec.normalize] <;> ring

/-- the hypotheses can be met -/
example : ∃ b, Lib.singleParticle 2 1 (-1) 0 0 ⟨0, 0, 1⟩ = .ok b := by
  obtain ⟨b, _, h, _⟩ := C64_particle_partial 2 1 (-1) 0 0 ⟨0, 0, 1⟩ (by norm_num) one_ne_zero (by norm_num) (by intro h; have := congrArg Vec.z h; simp at this)
  exact ⟨b, h⟩

/-- The full statement is false: a particle without charge has no charge-to-mass ratio, even if one is given. -/
theorem C64_full_statement_false :
    ¬∀ (gamma charge cmr t0 : ℝ) (pos dir : Vec), 1 ≤ gamma → cmr ≠ 0 → dir ≠ 0 →
      ∃ (b : Bunch) (p : Particle), Lib.singleParticle gamma charge cmr t0 pos dir = .ok b ∧ b.Consists 1 (fun _ => p) ∧
        b.getTotalCharge = .ok charge ∧ p.Charge / p.Mass = cmr := by
  intro h
  obtain ⟨b, p, hb, _⟩ := h 2 0 1 0 0 ⟨0, 0, 1⟩ (by norm_num) one_ne_zero (by intro h; have := congrArg Vec.z h; simp at this)
  unfold Lib.singleParticle at hb
  rw [betaGamma_ok (by norm_num)] at hb
  simp [Lib.chargeMass, bind, Except.bind] at hb

/-! ## Bunches -/

/-- the distribution has `n` points with the six coordinates `c i 0, ..., c i 5` -/
structure HasCoords (d : Distribution) (n : Nat) (c : Nat → Nat → ℝ) : Prop where
  reach : d.Reachable
  dim : d.DIM = 6
  nop : d.NOP = n
  coord : ∀ i < n, ∀ j < 6, d.getCoordinate (i : Nat) (j : Nat) = .ok (c i j)

theorem coords_new (u : Nat → ℝ) (n : Nat) : HasCoords (Distribution.new u 6 n) n (fun i j => u (i * 6 + j)) := by
  refine ⟨.new _ _ _, rfl, rfl, fun i hi j hj => ?_⟩
  apply get_nat i j hi hj
  have hi : i < n := hi
  show ((List.range (6 * n)).map u)[i * 6 + j]? = _
  rw [List.getElem?_map, List.getElem?_range (by omega)]
  rfl

theorem coords_gauss {d : Distribution} {n c} (h : HasCoords d n c) (rnd : Nat → ℝ) (k : Nat) :
    ∃ d', d.generateGaussian rnd (k : Int) = .ok d' ∧ HasCoords d' n (fun i j => if j = k then rnd i else c i j) := by
  obtain ⟨d', h1, _, h3, h4, h5⟩ := gauss_spec (reachable_sized h.reach) rnd k
  refine ⟨d', h1, ⟨.gauss _ _ h.reach h1, by rw [h3, h.dim], by rw [h4, h.nop], fun i hi j hj => ?_⟩⟩
  rw [h5 _ _ _ (h.coord i hi j hj)]
  have hv : d.Valid (i : Int) (j : Int) := by unfold Distribution.Valid; rw [h.dim, h.nop]; omega
  by_cases hjk : j = k
  · rw [if_pos ⟨by exact_mod_cast hjk, hv⟩, if_pos hjk]
    simp
  · rw [if_neg (by intro hh; exact hjk (by exact_mod_cast hh.1)), if_neg hjk]

theorem coords_scale {d : Distribution} {n c} (h : HasCoords d n c) (k : Nat) (f : ℝ) :
    ∃ d', d.scale (k : Int) f = .ok d' ∧ HasCoords d' n (fun i j => if j = k then c i j * f else c i j) := by
  obtain ⟨d', h1, _, h3, h4, h5⟩ := scale_spec (reachable_sized h.reach) k f
  refine ⟨d', h1, ⟨.scale _ _ h.reach h1, by rw [h3, h.dim], by rw [h4, h.nop], fun i hi j hj => ?_⟩⟩
  rw [h5 _ _ _ (h.coord i hi j hj)]
  have hv : d.Valid (i : Int) (j : Int) := by unfold Distribution.Valid; rw [h.dim, h.nop]; omega
  by_cases hjk : j = k
  · rw [if_pos ⟨by exact_mod_cast hjk, hv⟩, if_pos hjk]
  · rw [if_neg (by intro hh; exact hjk (by exact_mod_cast hh.1)), if_neg hjk]

/-- the effect of a list of correlations on a set of coordinates: coordinate `dep` gets `factor` times coordinate `ind` added, one correlation
after the other; coordinate numbers other than 0 to 5 and correlations of a coordinate with itself have no effect -/
noncomputable def correlated (cs : List (Int × Int × ℝ)) (c : Nat → ℝ) : Nat → ℝ :=
  cs.foldl (fun (c : Nat → ℝ) s j =>
    if (j : Int) = s.2.1 ∧ 0 ≤ s.1 ∧ s.1 < 6 ∧ s.2.1 ≠ s.1 then c j + s.2.2 * c s.1.toNat else c j) c

theorem correlated_congr (cs : List (Int × Int × ℝ)) : ∀ {c c' : Nat → ℝ}, (∀ j < 6, c j = c' j) → ∀ j < 6, correlated cs c j = correlated cs c' j := by
  induction cs with
  | nil => exact fun h => h
  | cons s cs ih =>
    intro c c' h
    unfold correlated
    rw [List.foldl_cons, List.foldl_cons]
    refine ih (fun j hj => ?_)
    by_cases hs : (j : Int) = s.2.1 ∧ 0 ≤ s.1 ∧ s.1 < 6 ∧ s.2.1 ≠ s.1
    · rw [if_pos hs, if_pos hs, h j hj, h s.1.toNat (by omega)]
    · rw [if_neg hs, if_neg hs, h j hj]

theorem coords_corr (cs : List (Int × Int × ℝ)) : ∀ {d : Distribution} {n c}, HasCoords d n c →
    ∃ d', cs.foldlM (fun (d : Distribution) s => d.addCorrelation s.1 s.2.1 s.2.2) d = .ok d' ∧ HasCoords d' n (fun i => correlated cs (c i)) := by
  induction cs with
  | nil => exact fun h => ⟨_, rfl, h⟩
  | cons s cs ih =>
    intro d n c h
    obtain ⟨d', h1, _, h3, h4, h5⟩ := corr_spec (reachable_sized h.reach) s.1 s.2.1 s.2.2
    have h' : HasCoords d' n (fun i j =>
        if (j : Int) = s.2.1 ∧ 0 ≤ s.1 ∧ s.1 < 6 ∧ s.2.1 ≠ s.1 then c i j + s.2.2 * c i s.1.toNat else c i j) := by
      refine ⟨.corr _ _ _ h.reach h1, by rw [h3, h.dim], by rw [h4, h.nop], fun i hi j hj => ?_⟩
      have hv : ∀ k : Int, d.Valid (i : Int) k ↔ 0 ≤ k ∧ k < 6 := by
        intro k; unfold Distribution.Valid; rw [h.dim, h.nop]; omega
      by_cases hs : 0 ≤ s.1 ∧ s.1 < 6
      · have hg := h.coord i hi s.1.toNat (by omega)
        rw [Int.toNat_of_nonneg hs.1] at hg
        rw [h5 _ _ _ _ (h.coord i hi j hj) hg]
        congr 1
        refine if_congr ?_ rfl rfl
        rw [hv, hv]
        constructor <;> intro hh <;> omega
      · rw [h5 _ _ _ 0 (h.coord i hi j hj) (get_invalid _ _ (by rw [hv]; exact hs))]
        congr 1
        rw [if_neg (by rw [hv, hv]; tauto), if_neg (by tauto)]
    rw [List.foldlM_cons, h1]
    obtain ⟨d2, h6, h7⟩ := ih h'
    exact ⟨d2, h6, h7⟩

/-- **C64** (bunch): a bunch made from a `<bunch>` entry consists of the given number of particles; they share the total charge equally and have the
given charge-to-mass ratio; they all start at the given time.  Their positions and momenta are the given ones plus the coordinates made
from random numbers with the given widths (transverse: Gaussian; longitudinal: flat-top, if a length is given, else Gaussian), modified by the correlations.  Missing from
the full statement: no charge, charge-to-mass ratio 0 and no direction are excluded. -/
theorem C64_bunch_partial (L : Lib) (k n : Nat) (hn : 1 ≤ n) (gamma charge cmr t0 : ℝ) (pos dir : Vec) (w : Lib.Widths) (cs : List (Int × Int × ℝ))
    (hg : 1 ≤ gamma) (hq : charge ≠ 0) (hc : cmr ≠ 0) (hd : dir ≠ 0) :
    ∃ (b : Bunch) (ps : Nat → Particle), L.makeBunch k n gamma charge cmr t0 pos dir w cs = .ok b ∧ b.Reachable ∧ b.Consists n ps ∧
      b.getTotalCharge = .ok charge ∧
      ∀ i < n, (ps i).getCharge = charge / n ∧ (ps i).Charge / (ps i).Mass = cmr ∧ (ps i).getNP = 1 ∧ (ps i).TrajTime 0 = .ok t0 ∧
        ∃ c : Nat → ℝ,
          c = correlated cs (fun j =>
            if j = 0 then w.x * L.normal k 0 i else if j = 1 then w.y * L.normal k 1 i
            else if j = 2 then (if w.zft ≠ 0 then w.zft * L.uniform k (6 * i + 2) else w.z * L.normal k 2 i)
            else Real.sqrt (gamma ^ 2 - 1) *
              (if j = 3 then w.xp * L.normal k 3 i else if j = 4 then w.yp * L.normal k 4 i else w.delta * L.normal k 5 i)) ∧
          (ps i).TrajPoint 0 = .ok (pos + ⟨c 0, c 1, c 2⟩) ∧
          (ps i).TrajMomentum 0 = .ok (dir.normalize * Real.sqrt (gamma ^ 2 - 1) + ⟨c 3, c 4, c 5⟩) ∧ (ps i).TrajAccel 0 = .ok 0 := by
  have he := elementaryCharge_ne
  have hq' : charge / ElementaryCharge ≠ 0 := div_ne_zero hq he
  have hn' : (n : ℝ) ≠ 0 := by positivity
  have hg2 : gamma * gamma - 1 = gamma ^ 2 - 1 := by ring
  set bg := Real.sqrt (gamma ^ 2 - 1) with hbg
  obtain ⟨d0, e0, h0⟩ := coords_gauss (coords_new (L.uniform k) n) (fun i => w.x * L.normal k 0 i) 0
  obtain ⟨d1, e1, h1⟩ := coords_gauss h0 (fun i => w.y * L.normal k 1 i) 1
  obtain ⟨d2, e2, h2⟩ : ∃ d2, (if w.zft ≠ 0 then d1.scale 2 w.zft
      else if w.z ≠ 0 then Distribution.generateGaussian (fun i => w.z * L.normal k 2 i) d1 2 else d1.scale 2 0) = .ok d2 ∧
      HasCoords d2 n (fun i j => if j = 0 then w.x * L.normal k 0 i else if j = 1 then w.y * L.normal k 1 i
            else if j = 2 then (if w.zft ≠ 0 then w.zft * L.uniform k (6 * i + 2) else w.z * L.normal k 2 i) else L.uniform k (i * 6 + j)) := by
    have key : ∀ {d : Distribution} {f : Nat → Nat → ℝ}, HasCoords d n f →
        (∀ i < n, ∀ j < 6, f i j = (if j = 0 then w.x * L.normal k 0 i else if j = 1 then w.y * L.normal k 1 i
            else if j = 2 then (if w.zft ≠ 0 then w.zft * L.uniform k (6 * i + 2) else w.z * L.normal k 2 i) else L.uniform k (i * 6 + j))) →
        HasCoords d n (fun i j => if j = 0 then w.x * L.normal k 0 i else if j = 1 then w.y * L.normal k 1 i
            else if j = 2 then (if w.zft ≠ 0 then w.zft * L.uniform k (6 * i + 2) else w.z * L.normal k 2 i) else L.uniform k (i * 6 + j)) :=
      fun h hf => ⟨h.reach, h.dim, h.nop, fun i hi j hj => by rw [h.coord i hi j hj, hf i hi j hj]⟩
    by_cases hz : w.zft ≠ 0
    · rw [if_pos hz]
      obtain ⟨d2, e2, h2⟩ := coords_scale h1 2 w.zft
      refine ⟨d2, e2, key h2 fun i hi j hj => ?_⟩
      rw [if_pos hz]
      interval_cases j <;> simp
      rw [mul_comm i 6, mul_comm]
    · rw [if_neg hz]
      by_cases hz2 : w.z ≠ 0
      · rw [if_pos hz2]
        obtain ⟨d2, e2, h2⟩ := coords_gauss h1 (fun i => w.z * L.normal k 2 i) 2
        refine ⟨d2, e2, key h2 fun i hi j hj => ?_⟩
        rw [if_neg hz]
        interval_cases j <;> simp
      · rw [if_neg hz2]
        obtain ⟨d2, e2, h2⟩ := coords_scale h1 2 0
        refine ⟨d2, e2, key h2 fun i hi j hj => ?_⟩
        rw [if_neg hz]
        push Not at hz2
        interval_cases j <;> simp [hz2]
  obtain ⟨d3, e3, h3⟩ := coords_gauss h2 (fun i => bg * w.xp * L.normal k 3 i) 3
  obtain ⟨d4, e4, h4⟩ := coords_gauss h3 (fun i => bg * w.yp * L.normal k 4 i) 4
  obtain ⟨d5, e5, h5⟩ := coords_gauss h4 (fun i => bg * w.delta * L.normal k 5 i) 5
  obtain ⟨d6, e6, h6⟩ := coords_corr cs h5
  have hdist : L.distribution k n bg w cs = .ok d6 := by
    unfold Lib.distribution
    have e0 : Distribution.generateGaussian (fun i => w.x * L.normal k 0 i) (Distribution.new (L.uniform k) 6 n) 0 = .ok d0 := e0
    have e1 : d0.generateGaussian (fun i => w.y * L.normal k 1 i) 1 = .ok d1 := e1
    have e3 : d2.generateGaussian (fun i => bg * w.xp * L.normal k 3 i) 3 = .ok d3 := e3
    have e4 : d3.generateGaussian (fun i => bg * w.yp * L.normal k 4 i) 4 = .ok d4 := e4
    have e5 : d4.generateGaussian (fun i => bg * w.delta * L.normal k 5 i) 5 = .ok d5 := e5
    by_cases hz : w.zft ≠ 0
    · rw [if_pos hz] at e2
      simp only [bind, Except.bind, e0, e1, if_pos hz, e2, e3, e4, e5]
      exact e6
    · rw [if_neg hz] at e2
      by_cases hz2 : w.z ≠ 0
      · rw [if_pos hz2] at e2
        simp only [bind, Except.bind, e0, e1, if_neg hz, if_pos hz2, e2, e3, e4, e5]
        exact e6
      · rw [if_neg hz2] at e2
        simp only [bind, Except.bind, e0, e1, if_neg hz, if_neg hz2, e2, e3, e4, e5]
        exact e6
  obtain ⟨b, ps, hb, hr, hcons, hps⟩ := C74_distribution d6 h6.reach t0 pos (dir.normalize * bg) (charge / ElementaryCharge / n)
    (charge / ElementaryCharge / cmr / n)
  rw [h6.nop] at hcons hps
  have hch : ∀ i < n, (ps i).getCharge = charge / n := by
    intro i hi
    obtain ⟨_, _, hq, _⟩ := hps i hi
    unfold Particle.getCharge
    rw [hq]
    field_simp
  refine ⟨b, ps, ?_, hr, hcons, ?_, ?_⟩
  · unfold Lib.makeBunch
    rw [if_neg (by omega), betaGamma_ok hg, chargeMass_ok hq' hc, normalizeE_of_ne hd, hg2]
    simp only [bind, Except.bind]
    rw [← hbg, hdist]
    exact hb
  · rw [charge_of_consists hr hcons, Finset.sum_congr rfl (fun i hi => hch i (Finset.mem_range.1 hi))]
    simp
    field_simp
  · intro i hi
    obtain ⟨c, hcc, hq1, hm1, hnp, ht, hx, hp, ha, _⟩ := hps i hi
    have hc6 : c 6 = 0 := by
      have h6' := hcc 6
      have h6'' := C74_start_time d6 (by rw [h6.dim]) (i : Int)
      exact Except.ok.inj (h6'.symm.trans h6'')
    have hcj : ∀ j : Fin 7, (j : Nat) < 6 → c j = correlated cs (fun j =>
            if j = 0 then w.x * L.normal k 0 i else if j = 1 then w.y * L.normal k 1 i
            else if j = 2 then (if w.zft ≠ 0 then w.zft * L.uniform k (6 * i + 2) else w.z * L.normal k 2 i)
            else bg *
              (if j = 3 then w.xp * L.normal k 3 i else if j = 4 then w.yp * L.normal k 4 i else w.delta * L.normal k 5 i)) j := by
      intro j hj
      have e := (hcc j).symm.trans (h6.coord i hi j hj)
      rw [Except.ok.inj e]
      refine correlated_congr cs (fun j hj => ?_) j hj
      interval_cases j <;> simp <;> ring
    refine ⟨hch i hi, ?_, hnp, by rw [ht, hc6, add_zero], _, rfl, ?_, ?_, ha⟩
    · rw [hq1, hm1]
      field_simp
    · rw [hx, hcj 0 (by decide), hcj 1 (by decide), hcj 2 (by decide)]
      rfl
    · rw [hp, hcj 3 (by decide), hcj 4 (by decide), hcj 5 (by decide)]
      rfl

/-- **C64** (cold bunch): without any spread and correlation all particles of a bunch start at the same position with the given energy. -/
theorem C64_cold_partial (L : Lib) (k n : Nat) (hn : 1 ≤ n) (gamma charge cmr t0 : ℝ) (pos dir : Vec)
    (hg : 1 ≤ gamma) (hq : charge ≠ 0) (hc : cmr ≠ 0) (hd : dir ≠ 0) :
    ∃ (b : Bunch) (ps : Nat → Particle), L.makeBunch k n gamma charge cmr t0 pos dir ⟨0, 0, 0, 0, 0, 0, 0⟩ [] = .ok b ∧ b.Consists n ps ∧
      ∀ i < n, (ps i).TrajPoint 0 = .ok pos ∧ ∃ P, (ps i).TrajMomentum 0 = .ok P ∧ Real.sqrt (1 + P.norm ^ 2) = gamma := by
  obtain ⟨b, ps, hb, -, h1, -, h2⟩ := C64_bunch_partial L k n hn gamma charge cmr t0 pos dir ⟨0, 0, 0, 0, 0, 0, 0⟩ [] hg hq hc hd
  refine ⟨b, ps, hb, h1, fun i hi => ?_⟩
  obtain ⟨-, -, -, -, c, hcc, hx, hp, -⟩ := h2 i hi
  have hz : ∀ j, c j = 0 := by
    intro j
    rw [hcc]
    simp [correlated]
  have e0 : (⟨c 0, c 1, c 2⟩ : Vec) = 0 := by rw [hz, hz, hz]; rfl
  have e1 : (⟨c 3, c 4, c 5⟩ : Vec) = 0 := by rw [hz, hz, hz]; rfl
  rw [e0] at hx
  rw [e1] at hp
  refine ⟨by rw [hx]; congr 1; ext <;> simp, _, hp, ?_⟩
  have e2 : gamma ^ 2 - 1 = gamma * gamma - 1 := by ring
  have e3 : dir.normalize * Real.sqrt (gamma * gamma - 1) + 0 = dir.normalize * Real.sqrt (gamma * gamma - 1) := by ext <;> simp
  rw [e2, e3]
  exact gamma_of_direction hd hg

/-- the hypotheses can be met -/
example : ∃ b, Input.exampleLib.makeBunch 0 3 2 1 (-1) 0 0 ⟨0, 0, 1⟩ ⟨1, 1, 1, 0, 0, 0, 0⟩ [(0, 3, 2)] = .ok b ∧ b.getTotalCharge = .ok 1 := by
  obtain ⟨b, _, h, _, _, h2, _⟩ := C64_bunch_partial Input.exampleLib 0 3 (by norm_num) 2 1 (-1) 0 0 ⟨0, 0, 1⟩ ⟨1, 1, 1, 0, 0, 0, 0⟩ [(0, 3, 2)]
    (by norm_num) one_ne_zero (by norm_num) (by intro h; have := congrArg Vec.z h; simp at this)
  exact ⟨b, h, h2⟩

end Teufel
