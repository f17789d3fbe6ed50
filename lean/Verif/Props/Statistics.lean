import Verif.Props.BunchBeam
import Verif.Props.Distribution
import Verif.Lemmas.Observe
import Mathlib.Algebra.BigOperators.Intervals
import Mathlib.Algebra.Order.BigOperators.Group.Finset
import Mathlib.Algebra.BigOperators.Field
import Mathlib.Analysis.SpecialFunctions.Complex.Circle

/-!
# C69, C74: bunch statistics and bunches created from distributions
-/

namespace Teufel
open Vec

/-- The bunch consists of the `n` particles `ps 0, ..., ps (n-1)`, as its interface shows. -/
def Bunch.Consists (b : Bunch) (n : Nat) (ps : Nat → Particle) : Prop :=
  b.getNOP = n ∧ ∀ i : Nat, i < n → b.getParticle i = .ok (some (ps i))

theorem consists_list {b : Bunch} (hb : b.WF) {n : Nat} {ps : Nat → Particle} (h : b.Consists n ps) :
    b.NOP = n ∧ b.P = (List.range n).map ps := by
  obtain ⟨h1, h2⟩ := h
  have hn : b.NOP = n := h1
  refine ⟨hn, ?_⟩
  apply List.ext_getElem?
  intro i
  by_cases hi : i < n
  · have := h2 i hi
    rw [getParticle_spec hb] at this
    simp only [Int.natCast_nonneg, if_true, Int.toNat_natCast] at this
    injection this with this
    rw [this]
    simp [hi]
  · rw [List.getElem?_eq_none (by rw [← hb.1, hn]; omega), List.getElem?_eq_none (by simp; omega)]

theorem foldl_range_sum {M : Type*} [AddCommMonoid M] (f : Particle → M) (ps : Nat → Particle) (n : Nat) :
    ((List.range n).map ps).foldl (fun (s : M) (p : Particle) => s + f p) 0 = ∑ i ∈ Finset.range n, f (ps i) := by
  induction n with
  | zero => rfl
  | succ n ih =>
    rw [List.range_succ, List.map_append, List.foldl_append, ih, Finset.sum_range_succ]
    rfl

theorem foldl_vec (f : Particle → Vec) (l : List Particle) (a : Vec) :
    l.foldl (fun (s : Vec) (p : Particle) => s + f p) a =
      ⟨l.foldl (fun (s : ℝ) (p : Particle) => s + (f p).x) a.x, l.foldl (fun (s : ℝ) (p : Particle) => s + (f p).y) a.y,
        l.foldl (fun (s : ℝ) (p : Particle) => s + (f p).z) a.z⟩ := by
  induction l generalizing a with
  | nil => rfl
  | cons p l ih => rw [List.foldl_cons, ih]; rfl

theorem mean_ok {b : Bunch} (hb : b.WF) {n : Nat} {ps : Nat → Particle} (h : b.Consists n ps) (hn : 0 < n) (f : Particle → ℝ) :
    b.mean f = .ok ((∑ i ∈ Finset.range n, f (ps i)) / n) := by
  obtain ⟨h1, h2⟩ := consists_list hb h
  unfold Bunch.mean
  rw [visited_all hb.1, h1, h2, ← foldl_range_sum f ps n]
  simp only [bind, Except.bind]
  rw [if_neg (by omega)]
  rfl

theorem meanVec_ok {b : Bunch} (hb : b.WF) {n : Nat} {ps : Nat → Particle} (h : b.Consists n ps) (hn : 0 < n) (f : Particle → Vec) :
    b.meanVec f = .ok ⟨(∑ i ∈ Finset.range n, (f (ps i)).x) / n, (∑ i ∈ Finset.range n, (f (ps i)).y) / n,
      (∑ i ∈ Finset.range n, (f (ps i)).z) / n⟩ := by
  obtain ⟨h1, h2⟩ := consists_list hb h
  unfold Bunch.meanVec
  rw [visited_all hb.1, h1, h2]
  simp only [bind, Except.bind]
  rw [if_neg (by omega), foldl_vec]
  simp only [zero_x, zero_y, zero_z]
  rw [foldl_range_sum (fun p => (f p).x), foldl_range_sum (fun p => (f p).y), foldl_range_sum (fun p => (f p).z)]
  simp only [pure, Except.pure]
  congr 1
  ext <;> simp [div_eq_mul_inv]

/-- **C69 (averages).** All averages are arithmetic means over the particles of the bunch. -/
theorem C69_averages (b : Bunch) (hb : b.Reachable) (n : Nat) (hn : 0 < n) (ps : Nat → Particle) (h : b.Consists n ps) :
    b.avgTime = .ok ((∑ i ∈ Finset.range n, (ps i).tCur) / n) ∧
    (∃ X, b.avgPosition = .ok X ∧ X.x = (∑ i ∈ Finset.range n, (ps i).XCur.x) / n ∧ X.y = (∑ i ∈ Finset.range n, (ps i).XCur.y) / n ∧
      X.z = (∑ i ∈ Finset.range n, (ps i).XCur.z) / n) ∧
    (∃ P, b.avgMomentum = .ok P ∧ P.x = (∑ i ∈ Finset.range n, (ps i).PCur.x) / n ∧ P.y = (∑ i ∈ Finset.range n, (ps i).PCur.y) / n ∧
      P.z = (∑ i ∈ Finset.range n, (ps i).PCur.z) / n) ∧
    (∃ g, b.avgGamma = .ok g ∧ g = (∑ i ∈ Finset.range n, Real.sqrt (1 + (ps i).PCur.norm ^ 2)) / n ∧ 1 ≤ g) := by
  have hw := Bunch.wf_reachable hb
  refine ⟨mean_ok hw h hn _, ⟨_, meanVec_ok hw h hn _, rfl, rfl, rfl⟩, ⟨_, meanVec_ok hw h hn _, rfl, rfl, rfl⟩,
    ⟨_, mean_ok hw h hn _, ?_, ?_⟩⟩
  · congr 1
    refine Finset.sum_congr rfl (fun i _ => ?_)
    congr 1; ring
  · rw [le_div_iff₀ (by exact_mod_cast hn), one_mul]
    calc (n : ℝ) = ∑ i ∈ Finset.range n, (1 : ℝ) := by simp
      _ ≤ _ := Finset.sum_le_sum (fun i _ => by
          apply Real.le_sqrt_of_sq_le
          nlinarith [mul_self_nonneg (ps i).PCur.norm])

/-- **C69 (sizes).** The RMS size along each axis is the root mean square deviation from the average position; it
vanishes exactly when all particles have the same coordinate. -/
theorem C69_rms (b : Bunch) (hb : b.Reachable) (n : Nat) (hn : 0 < n) (ps : Nat → Particle) (h : b.Consists n ps) :
    ∃ X r, b.avgPosition = .ok X ∧ b.rmsPosition = .ok r ∧ 0 ≤ r.x ∧ 0 ≤ r.y ∧ 0 ≤ r.z ∧
      r.x ^ 2 = (∑ i ∈ Finset.range n, ((ps i).XCur.x - X.x) ^ 2) / n ∧
      r.y ^ 2 = (∑ i ∈ Finset.range n, ((ps i).XCur.y - X.y) ^ 2) / n ∧
      r.z ^ 2 = (∑ i ∈ Finset.range n, ((ps i).XCur.z - X.z) ^ 2) / n ∧
      (r.x = 0 ↔ ∀ i, i < n → (ps i).XCur.x = (ps 0).XCur.x) ∧ (r.y = 0 ↔ ∀ i, i < n → (ps i).XCur.y = (ps 0).XCur.y) ∧
      (r.z = 0 ↔ ∀ i, i < n → (ps i).XCur.z = (ps 0).XCur.z) := by
  have hw := Bunch.wf_reachable hb
  have hn' : (0 : ℝ) < n := by exact_mod_cast hn
  have hX := meanVec_ok hw h hn (fun p => p.XCur)
  have key : ∀ c : Nat → ℝ, ∀ m, m = (∑ i ∈ Finset.range n, c i) / n →
      (Real.sqrt ((∑ i ∈ Finset.range n, (c i - m) * (c i - m)) / n)) ^ 2 = (∑ i ∈ Finset.range n, (c i - m) ^ 2) / n ∧
      (Real.sqrt ((∑ i ∈ Finset.range n, (c i - m) * (c i - m)) / n) = 0 ↔ ∀ i, i < n → c i = c 0) := by
    intro c m hm
    have e : ∑ i ∈ Finset.range n, (c i - m) * (c i - m) = ∑ i ∈ Finset.range n, (c i - m) ^ 2 :=
      Finset.sum_congr rfl (fun i _ => by ring)
    have hpos : 0 ≤ (∑ i ∈ Finset.range n, (c i - m) ^ 2) / n := div_nonneg (Finset.sum_nonneg (fun i _ => sq_nonneg _)) hn'.le
    rw [e]
    refine ⟨Real.sq_sqrt hpos, ?_⟩
    rw [Real.sqrt_eq_zero hpos, div_eq_zero_iff, or_iff_left hn'.ne', Finset.sum_eq_zero_iff_of_nonneg (fun i _ => sq_nonneg _)]
    constructor
    · intro hz i hi
      have a := hz i (by simpa using hi)
      have b := hz 0 (by simpa using hn)
      have a' := pow_eq_zero_iff (two_ne_zero) |>.mp a
      have b' := pow_eq_zero_iff (two_ne_zero) |>.mp b
      linarith
    · intro hz i hi
      have hi' : i < n := by simpa using hi
      have : m = c 0 := by
        rw [hm, Finset.sum_congr rfl (fun i hi => hz i (by simpa using hi))]
        simp
        field_simp
      rw [this, hz i hi', sub_self]; norm_num
  obtain ⟨X, hXd⟩ : ∃ X : Vec, X = ⟨(∑ i ∈ Finset.range n, (ps i).XCur.x) / n, (∑ i ∈ Finset.range n, (ps i).XCur.y) / n,
      (∑ i ∈ Finset.range n, (ps i).XCur.z) / n⟩ := ⟨_, rfl⟩
  rw [← hXd] at hX
  have hr : b.rmsPosition = .ok ⟨Real.sqrt ((∑ i ∈ Finset.range n, ((ps i).XCur.x - X.x) * ((ps i).XCur.x - X.x)) / n),
      Real.sqrt ((∑ i ∈ Finset.range n, ((ps i).XCur.y - X.y) * ((ps i).XCur.y - X.y)) / n),
      Real.sqrt ((∑ i ∈ Finset.range n, ((ps i).XCur.z - X.z) * ((ps i).XCur.z - X.z)) / n)⟩ := by
    unfold Bunch.rmsPosition Bunch.avgPosition
    rw [hX]
    simp only [bind, Except.bind]
    rw [meanVec_ok hw h hn]
    rfl
  obtain ⟨x1, x2⟩ := key (fun i => (ps i).XCur.x) X.x (by rw [hXd])
  obtain ⟨y1, y2⟩ := key (fun i => (ps i).XCur.y) X.y (by rw [hXd])
  obtain ⟨z1, z2⟩ := key (fun i => (ps i).XCur.z) X.z (by rw [hXd])
  exact ⟨X, _, hX, hr, Real.sqrt_nonneg _, Real.sqrt_nonneg _, Real.sqrt_nonneg _, x1, y1, z1, x2, y2, z2⟩

/-- **C69 (energy spread).** The relative momentum spread is the root mean square deviation of the magnitude of the momentum divided by
its average; it is non-negative and vanishes exactly when all particles have the same magnitude of the momentum.  For a bunch at
rest it is not defined. -/
theorem C69_delta (b : Bunch) (hb : b.Reachable) (n : Nat) (hn : 0 < n) (ps : Nat → Particle) (h : b.Consists n ps) :
    ((∀ i, i < n → (ps i).PCur = 0) → b.delta = .error .nan) ∧
    (¬ (∀ i, i < n → (ps i).PCur = 0) → ∃ d m, b.delta = .ok d ∧ m = (∑ i ∈ Finset.range n, (ps i).PCur.norm) / n ∧ 0 < m ∧ 0 ≤ d ∧
      (d * m) ^ 2 = (∑ i ∈ Finset.range n, ((ps i).PCur.norm - m) ^ 2) / n ∧
      (d = 0 ↔ ∀ i, i < n → (ps i).PCur.norm = (ps 0).PCur.norm)) := by
  have hw := Bunch.wf_reachable hb
  have hn' : (0 : ℝ) < n := by exact_mod_cast hn
  obtain ⟨m, hm⟩ : ∃ m : ℝ, m = (∑ i ∈ Finset.range n, (ps i).PCur.norm) / n := ⟨_, rfl⟩
  obtain ⟨v, hv⟩ : ∃ v : ℝ, v = (∑ i ∈ Finset.range n, ((ps i).PCur.norm - m) ^ 2) / n := ⟨_, rfl⟩
  have hv0 : 0 ≤ v := by rw [hv]; exact div_nonneg (Finset.sum_nonneg (fun i _ => sq_nonneg _)) hn'.le
  have h1 : b.mean (fun p => p.PCur.norm) = .ok m := by rw [mean_ok hw h hn, hm]
  have h2 : b.mean (fun p => (p.PCur.norm - m) * (p.PCur.norm - m)) = .ok v := by
    rw [mean_ok hw h hn, hv]
    congr 2
    exact Finset.sum_congr rfl (fun i _ => by ring)
  have hd : b.delta = if m = 0 then .error .nan else .ok (Real.sqrt v / m) := by
    unfold Bunch.delta
    rw [h1]
    simp only [bind, Except.bind]
    rw [h2]
    rfl
  have hm0 : 0 ≤ m := by rw [hm]; exact div_nonneg (Finset.sum_nonneg (fun i _ => norm_nonneg _)) hn'.le
  have hz : m = 0 ↔ ∀ i, i < n → (ps i).PCur = 0 := by
    rw [hm, div_eq_zero_iff, or_iff_left hn'.ne', Finset.sum_eq_zero_iff_of_nonneg (fun i _ => norm_nonneg _)]
    constructor
    · intro hs i hi
      by_contra hne
      have := norm_pos hne
      have h0 := hs i (by simpa using hi)
      linarith
    · intro hs i hi
      rw [hs i (by simpa using hi)]
      simp [Vec.norm]
  constructor
  · intro hs
    rw [hd, if_pos (hz.mpr hs)]
  · intro hs
    have hne : m ≠ 0 := fun h => hs (hz.mp h)
    have hpos : 0 < m := lt_of_le_of_ne hm0 (Ne.symm hne)
    refine ⟨Real.sqrt v / m, m, by rw [hd, if_neg hne], hm, hpos, by positivity, ?_, ?_⟩
    · rw [div_mul_cancel₀ _ hne, Real.sq_sqrt hv0, hv]
    · rw [div_eq_zero_iff, or_iff_left hne, Real.sqrt_eq_zero hv0, hv, div_eq_zero_iff, or_iff_left hn'.ne',
        Finset.sum_eq_zero_iff_of_nonneg (fun i _ => sq_nonneg _)]
      constructor
      · intro hz i hi
        have a' := pow_eq_zero_iff (two_ne_zero) |>.mp (hz i (by simpa using hi))
        have b' := pow_eq_zero_iff (two_ne_zero) |>.mp (hz 0 (by simpa using hn))
        linarith
      · intro hz i hi
        have : m = (ps 0).PCur.norm := by
          rw [hm, Finset.sum_congr rfl (fun i hi => hz i (by simpa using hi))]
          simp
          field_simp
        rw [this, hz i (by simpa using hi), sub_self]; norm_num

theorem bunching_ok {b : Bunch} (hb : b.WF) {n : Nat} {ps : Nat → Particle} (h : b.Consists n ps) (hn : 0 < n) (freq : ℝ) :
    b.BunchingFactor freq = .ok (1 / (n : ℂ) * ∑ i ∈ Finset.range n, Complex.exp (((2 * Pi * freq * (ps i).XCur.z / SpeedOfLight : ℝ) : ℂ) * Complex.I)) := by
  obtain ⟨h1, h2⟩ := consists_list hb h
  unfold Bunch.BunchingFactor
  rw [visited_all hb.1, h1, h2]
  simp only [bind, Except.bind]
  rw [if_neg (by omega), foldl_range_sum (fun p => Complex.exp (2 * (Pi : ℂ) * Complex.I * freq * p.XCur.z / SpeedOfLight))]
  simp only [pure, Except.pure]
  congr 2
  refine Finset.sum_congr rfl (fun i _ => ?_)
  congr 1
  push_cast
  ring

/-- **C69 (bunching).** The bunching factor is the mean of `exp(2πi f z/c)`; its magnitude never exceeds one, and it is one if the
particles are a whole number of wavelengths `c/f` apart. -/
theorem C69_bunching (b : Bunch) (hb : b.Reachable) (n : Nat) (hn : 0 < n) (ps : Nat → Particle) (h : b.Consists n ps) (freq : ℝ) :
    ∃ B : ℂ, b.BunchingFactor freq = .ok B ∧
      B * n = ∑ i ∈ Finset.range n, Complex.exp (((2 * Pi * freq * (ps i).XCur.z / SpeedOfLight : ℝ) : ℂ) * Complex.I) ∧
      ‖B‖ ≤ 1 ∧
      ((∀ i, i < n → ∃ k : Int, ((ps i).XCur.z - (ps 0).XCur.z) * freq = k * SpeedOfLight) → ‖B‖ = 1) := by
  have hw := Bunch.wf_reachable hb
  have hn' : (0 : ℝ) < n := by exact_mod_cast hn
  have hnc : (n : ℂ) ≠ 0 := by exact_mod_cast hn.ne'
  refine ⟨_, bunching_ok hw h hn freq, by rw [mul_comm, ← mul_assoc, mul_one_div_cancel hnc, one_mul], ?_, fun hk => ?_⟩
  · rw [_root_.norm_mul, norm_div, norm_one, Complex.norm_natCast]
    have : ‖∑ i ∈ Finset.range n, Complex.exp (((2 * Pi * freq * (ps i).XCur.z / SpeedOfLight : ℝ) : ℂ) * Complex.I)‖ ≤ n := by
      refine (norm_sum_le _ _).trans ?_
      rw [Finset.sum_congr rfl (fun i _ => Complex.norm_exp_ofReal_mul_I _)]
      simp
    rw [one_div, inv_mul_le_iff₀ hn', mul_one]
    exact this
  · have : ∀ i ∈ Finset.range n, Complex.exp (((2 * Pi * freq * (ps i).XCur.z / SpeedOfLight : ℝ) : ℂ) * Complex.I) =
        Complex.exp (((2 * Pi * freq * (ps 0).XCur.z / SpeedOfLight : ℝ) : ℂ) * Complex.I) := by
      intro i hi
      obtain ⟨k, hk⟩ := hk i (by simpa using hi)
      rw [Complex.exp_eq_exp_iff_exists_int]
      refine ⟨k, ?_⟩
      have e : 2 * Pi * freq * (ps i).XCur.z / SpeedOfLight = 2 * Pi * freq * (ps 0).XCur.z / SpeedOfLight + k * (2 * Pi) := by
        have := SpeedOfLight_ne
        field_simp
        linear_combination Pi * hk
      rw [e]
      unfold Pi
      push_cast
      ring
    rw [Finset.sum_congr rfl this]
    simp only [Finset.sum_const, Finset.card_range, nsmul_eq_mul]
    rw [one_div, inv_mul_cancel_left₀ hnc, Complex.norm_exp_ofReal_mul_I]

/-- **C69 (translation).** If the same bunch is displaced by `d`, its average position moves by `d`, the RMS sizes and the magnitude of the
bunching factor do not change. -/
theorem C69_translation (b b' : Bunch) (hb : b.Reachable) (hb' : b'.Reachable) (n : Nat) (hn : 0 < n) (ps ps' : Nat → Particle)
    (h : b.Consists n ps) (h' : b'.Consists n ps') (d : Vec) (hd : ∀ i, i < n → (ps' i).XCur = (ps i).XCur + d) (freq : ℝ) :
    (∃ X, b.avgPosition = .ok X ∧ b'.avgPosition = .ok (X + d)) ∧ b'.rmsPosition = b.rmsPosition ∧
    ∃ B B', b.BunchingFactor freq = .ok B ∧ b'.BunchingFactor freq = .ok B' ∧ ‖B'‖ = ‖B‖ := by
  have hw := Bunch.wf_reachable hb
  have hw' := Bunch.wf_reachable hb'
  have hn' : (0 : ℝ) < n := by exact_mod_cast hn
  have shift : ∀ (c c' : Nat → ℝ) (e : ℝ), (∀ i, i < n → c' i = c i + e) →
      (∑ i ∈ Finset.range n, c' i) / n = (∑ i ∈ Finset.range n, c i) / n + e := by
    intro c c' e he
    rw [Finset.sum_congr rfl (fun i hi => he i (by simpa using hi)), Finset.sum_add_distrib]
    simp
    field_simp
  have hX := meanVec_ok hw h hn (fun p => p.XCur)
  have hX' := meanVec_ok hw' h' hn (fun p => p.XCur)
  rw [shift (fun i => (ps i).XCur.x) (fun i => (ps' i).XCur.x) d.x (fun i hi => by simp [hd i hi]),
    shift (fun i => (ps i).XCur.y) (fun i => (ps' i).XCur.y) d.y (fun i hi => by simp [hd i hi]),
    shift (fun i => (ps i).XCur.z) (fun i => (ps' i).XCur.z) d.z (fun i hi => by simp [hd i hi])] at hX'
  refine ⟨⟨_, hX, hX'⟩, ?_, _, _, bunching_ok hw h hn freq, bunching_ok hw' h' hn freq, ?_⟩
  · unfold Bunch.rmsPosition Bunch.avgPosition
    rw [hX, hX']
    simp only [bind, Except.bind]
    rw [meanVec_ok hw h hn, meanVec_ok hw' h' hn]
    congr 4 <;>
    · refine Finset.sum_congr rfl (fun i hi => ?_)
      rw [hd i (by simpa using hi)]
      simp [Vec.square]
  · have : ∑ i ∈ Finset.range n, Complex.exp (((2 * Pi * freq * (ps' i).XCur.z / SpeedOfLight : ℝ) : ℂ) * Complex.I) =
        Complex.exp (((2 * Pi * freq * d.z / SpeedOfLight : ℝ) : ℂ) * Complex.I) *
        ∑ i ∈ Finset.range n, Complex.exp (((2 * Pi * freq * (ps i).XCur.z / SpeedOfLight : ℝ) : ℂ) * Complex.I) := by
      rw [Finset.mul_sum]
      refine Finset.sum_congr rfl (fun i hi => ?_)
      rw [← Complex.exp_add, hd i (by simpa using hi)]
      congr 1
      rw [add_z]
      push_cast
      ring
    rw [this, _root_.norm_mul, _root_.norm_mul, _root_.norm_mul, Complex.norm_exp_ofReal_mul_I, one_mul]

/-- **C69 (empty bunches).** None of the statistics exists for an empty bunch: the program divides by zero. -/
theorem C69_empty (b : Bunch) (hb : b.Reachable) (h : b.getNOP = 0) (freq : ℝ) :
    b.avgTime = .error .nan ∧ b.avgPosition = .error .nan ∧ b.rmsPosition = .error .nan ∧ b.avgMomentum = .error .nan ∧
    b.avgGamma = .error .nan ∧ b.delta = .error .nan ∧ b.BunchingFactor freq = .error .nan := by
  have hw := Bunch.wf_reachable hb
  have h0 : b.NOP = 0 := h
  have m : ∀ f, b.mean f = .error .nan := fun f => by
    unfold Bunch.mean; rw [visited_all hw.1]; simp only [bind, Except.bind]; rw [if_pos h0]
  have v : ∀ f, b.meanVec f = .error .nan := fun f => by
    unfold Bunch.meanVec; rw [visited_all hw.1]; simp only [bind, Except.bind]; rw [if_pos h0]
  refine ⟨m _, v _, ?_, v _, m _, ?_, ?_⟩
  · unfold Bunch.rmsPosition Bunch.avgPosition; rw [v]; rfl
  · unfold Bunch.delta; rw [m]; rfl
  · unfold Bunch.BunchingFactor; rw [visited_all hw.1]; simp only [bind, Except.bind]; rw [if_pos h0]

/-- two electrons on the axis, half a metre apart -/
noncomputable def electronAt (z : ℝ) : Particle := (Particle.new (-1) 1).initTrajectory 0 ⟨0, 0, z⟩ ⟨0, 0, 10⟩ 0

/-- non-vacuity: two particles a distance apart -/
example : ∃ b : Bunch, b.Reachable ∧ b.Consists 2 (fun i => electronAt i) ∧ electronAt 1 ≠ electronAt 0 := by
  have hr : ∀ z, (electronAt z).Reachable := fun z => ⟨_, [.init _ _ _ _], Or.inl ⟨_, _, rfl⟩, rfl⟩
  have hb : ((Bunch.empty.Add (electronAt 0)).Add (electronAt 1)).Reachable := .Add _ (.Add _ .empty (hr 0)) (hr 1)
  refine ⟨_, hb, ⟨rfl, fun i hi => ?_⟩, fun h => ?_⟩
  · rw [getParticle_spec (Bunch.wf_reachable hb)]
    rcases i with _ | _ | i
    · simp [Bunch.Add, Bunch.empty]
    · simp [Bunch.Add, Bunch.empty]
    · omega
  · have := congrArg (fun p => p.XCur.z) h
    simp [electronAt, Particle.initTrajectory] at this

/-- **C74.** A bunch created from a distribution has one particle for each of its points, with the given charge and mass, starting at the
reference time, position and momentum plus the coordinates of the point, at rest acceleration. -/
theorem C74_distribution (d : Distribution) (hd : d.Reachable) (t0 : ℝ) (x0 p0 : Vec) (q m : ℝ) :
    ∃ (b : Bunch) (ps : Nat → Particle), Bunch.ofDist d t0 x0 p0 q m = .ok b ∧ b.Reachable ∧ b.Consists d.NOP ps ∧
      ∀ i : Nat, i < d.NOP → ∃ c : Fin 7 → ℝ, (∀ k : Fin 7, d.getCoordinate i k = .ok (c k)) ∧
        (ps i).Charge = q ∧ (ps i).Mass = m ∧ (ps i).getNP = 1 ∧ (ps i).TrajTime 0 = .ok (t0 + c 6) ∧
        (ps i).TrajPoint 0 = .ok ⟨x0.x + c 0, x0.y + c 1, x0.z + c 2⟩ ∧
        (ps i).TrajMomentum 0 = .ok ⟨p0.x + c 3, p0.y + c 4, p0.z + c 5⟩ ∧ (ps i).TrajAccel 0 = .ok 0 ∧
        (ps i).tCur = t0 + c 6 ∧ (ps i).XCur = ⟨x0.x + c 0, x0.y + c 1, x0.z + c 2⟩ ∧ (ps i).PCur = ⟨p0.x + c 3, p0.y + c 4, p0.z + c 5⟩ := by
  have hs := reachable_sized hd
  choose v hv using fun (i k : Int) => get_total hs i k
  obtain ⟨ps, hps⟩ : ∃ ps : Nat → Particle, ps = fun i : Nat => (Particle.new q m).initTrajectory (t0 + v i 6) (x0 + ⟨v i 0, v i 1, v i 2⟩) (p0 + ⟨v i 3, v i 4, v i 5⟩) 0 := ⟨_, rfl⟩
  have hp : ∀ i, Bunch.distParticle d t0 x0 p0 q m i = .ok (ps i) := fun i => by
    unfold Bunch.distParticle
    rw [hv, hv, hv, hv, hv, hv, hv, hps]
    rfl
  have hb : Bunch.ofDist d t0 x0 p0 q m = .ok ⟨d.NOP, (List.range d.NOP).map ps⟩ := by
    unfold Bunch.ofDist
    rw [mapM_ok_map _ (Bunch.distParticle d t0 x0 p0 q m) ps (fun i _ => hp i)]
    rfl
  have hr : Bunch.Reachable ⟨d.NOP, (List.range d.NOP).map ps⟩ := .ofDist d t0 x0 p0 q m hb
  refine ⟨_, ps, hb, hr, ⟨rfl, fun i hi => ?_⟩, fun i _ => ⟨fun k => v i (k : Nat), fun k => hv _ _, ?_⟩⟩
  · rw [getParticle_spec (Bunch.wf_reachable hr)]
    simp [hi]
  · rw [hps]
    refine ⟨rfl, rfl, rfl, rfl, rfl, rfl, rfl, rfl, rfl, rfl⟩

/-- **C74 (start time).** For the six-dimensional distributions the parser creates all particles start at the reference time. -/
theorem C74_start_time (d : Distribution) (hd : d.DIM ≤ 6) (i : Int) : d.getCoordinate i 6 = .ok 0 := by
  refine get_invalid _ _ ?_
  rintro ⟨_, _, _, h⟩
  omega

/-- non-vacuity of C74: a distribution with three points of six coordinates -/
example : ∃ d : Distribution, d.Reachable ∧ d.NOP = 3 ∧ d.DIM = 6 ∧ d.getCoordinate 2 5 = .ok 17 :=
  ⟨Distribution.new (fun i => i) 6 3, .new _ _ _, rfl, rfl, by
    unfold Distribution.getCoordinate
    rw [if_pos (by simp [Distribution.new])]
    simp [Distribution.new, Particle.vecAt]⟩

end Teufel
