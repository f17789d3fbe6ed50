import Verif.Lemmas.Beam
import Mathlib.Algebra.BigOperators.Group.List.Basic
import Mathlib.Data.Finset.Card
import Mathlib.Algebra.BigOperators.Group.Finset.Basic
import Mathlib.Algebra.Order.BigOperators.Group.Finset

/-! # C30 (bunches), C31 - C34: bunch and beam containers -/

namespace Teufel
open Vec

/-! ## C31 accounting -/

theorem foldl_sum {α} (f : α → ℝ) (l : List α) (c : ℝ) : l.foldl (fun (s : ℝ) (a : α) => s + f a) c = c + (l.map f).sum := by
  induction l generalizing c with
  | nil => simp
  | cons a l ih => simp [ih, add_assoc]

theorem foldl_sum_nat {α} (f : α → Nat) (l : List α) (c : Nat) : l.foldl (fun (s : Nat) (a : α) => s + f a) c = c + (l.map f).sum := by
  induction l generalizing c with
  | nil => simp
  | cons a l ih => simp [ih]; omega

theorem getParticle_spec {b : Bunch} (h : b.WF) (i : Int) :
    b.getParticle i = .ok (if 0 ≤ i then b.P[i.toNat]? else none) := by
  unfold Bunch.getParticle
  by_cases hi : i ≥ 0 ∧ i < b.NOP
  · rw [if_pos hi, if_pos hi.1]
    have : i.toNat < b.P.length := by rw [← h.1]; omega
    simp [Particle.vecAt, List.getElem?_eq_getElem this, Except.map]
  · rw [if_neg hi]
    by_cases h0 : 0 ≤ i
    · rw [if_pos h0, List.getElem?_eq_none]
      rw [← h.1]; omega
    · rw [if_neg h0]

theorem getBunch_spec {b : Beam} (h : b.WF) (i : Int) :
    b.getBunch i = .ok (if 0 ≤ i then b.B[i.toNat]? else none) := by
  unfold Beam.getBunch
  by_cases hi : i ≥ 0 ∧ i < b.NOB
  · rw [if_pos hi, if_pos hi.1]
    have : i.toNat < b.B.length := by rw [← h.1]; omega
    simp [Particle.vecAt, List.getElem?_eq_getElem this, Except.map]
  · rw [if_neg hi]
    by_cases h0 : 0 ≤ i
    · rw [if_pos h0, List.getElem?_eq_none]
      rw [← h.1]; omega
    · rw [if_neg h0]

/-- C31: a bunch is a list of particles: `getNOP` is its length, `getParticle i` its i-th entry for valid `i` and
NULL otherwise, `getTotalCharge` the sum over the entries. -/
theorem C31_bunch {b : Bunch} (hr : b.Reachable) :
    ∃ ps : List Particle, b.getNOP = ps.length ∧
      (∀ i : Nat, b.getParticle i = .ok ps[i]?) ∧ (∀ i : Int, i < 0 ∨ b.getNOP ≤ i → b.getParticle i = .ok none) ∧
      b.getTotalCharge = .ok (ps.map Particle.getCharge).sum := by
  have h := Bunch.wf_reachable hr
  refine ⟨b.P, h.1, fun i => ?_, fun i hi => ?_, ?_⟩
  · rw [getParticle_spec h]; simp
  · rw [getParticle_spec h]
    split_ifs with h0
    · rw [List.getElem?_eq_none]; rw [← h.1]; simp only [Bunch.getNOP] at hi; omega
    · rfl
  · unfold Bunch.getTotalCharge
    rw [visited_all h.1]
    simp only [Except.map, foldl_sum, zero_add]

/-- C31: adding a particle appends it: earlier particles keep their place, count and charge increase accordingly. -/
theorem C31_bunch_add {b : Bunch} (hr : b.Reachable) (p : Particle) (hp : p.Reachable) :
    (b.Add p).getNOP = b.getNOP + 1 ∧ (b.Add p).getParticle b.getNOP = .ok (some p) ∧
    (∀ i : Nat, i < b.getNOP → (b.Add p).getParticle i = b.getParticle i) ∧
    ∃ q, b.getTotalCharge = .ok q ∧ (b.Add p).getTotalCharge = .ok (q + p.getCharge) := by
  have h := Bunch.wf_reachable hr
  have h' := Bunch.wf_reachable (.Add p hr hp)
  refine ⟨rfl, ?_, fun i hi => ?_, ?_⟩
  · rw [getParticle_spec h']
    simp [Bunch.Add, Bunch.getNOP, h.1]
  · rw [getParticle_spec h, getParticle_spec h']
    simp only [Bunch.getNOP, h.1] at hi
    simp [Bunch.Add, List.getElem?_append_left hi]
  · refine ⟨(b.P.map Particle.getCharge).sum, ?_, ?_⟩
    · unfold Bunch.getTotalCharge
      rw [visited_all h.1]
      simp only [Except.map, foldl_sum, zero_add]
    · unfold Bunch.getTotalCharge
      rw [visited_all h'.1]
      simp only [Except.map, foldl_sum, zero_add, Bunch.Add, List.map_append, List.sum_append, List.map_cons, List.map_nil, List.sum_singleton]

/-- C31: a beam is a list of bunches: counts and charges are the sums over the bunches; lookup of a bunch gives the
object for valid indices and NULL otherwise. -/
theorem C31_beam {b : Beam} (hr : b.Reachable) :
    ∃ bs : List Bunch, b.getNOB = bs.length ∧
      (∀ i : Nat, b.getBunch i = .ok bs[i]?) ∧ (∀ i : Int, i < 0 ∨ b.getNOB ≤ i → b.getBunch i = .ok none) ∧
      b.getNOP = .ok (bs.map Bunch.getNOP).sum ∧
      ∃ qs : List ℝ, qs.length = bs.length ∧ (∀ (i : Nat) (bu : Bunch), bs[i]? = some bu → ∃ q, qs[i]? = some q ∧ bu.getTotalCharge = .ok q) ∧
        b.getTotalCharge = .ok qs.sum := by
  have h := Beam.wf_reachable hr
  refine ⟨b.B, h.1, fun i => ?_, fun i hi => ?_, ?_, ?_⟩
  · rw [getBunch_spec h]; simp
  · rw [getBunch_spec h]
    split_ifs with h0
    · rw [List.getElem?_eq_none]; rw [← h.1]; simp only [Beam.getNOB] at hi; omega
    · rfl
  · unfold Beam.getNOP
    rw [visited_all h.1]
    simp only [Except.map, foldl_sum_nat, zero_add]
  · refine ⟨b.B.map (fun bu => (bu.P.map Particle.getCharge).sum), by simp, ?_, ?_⟩
    · intro i bu hi
      refine ⟨(bu.P.map Particle.getCharge).sum, by simp [hi], ?_⟩
      unfold Bunch.getTotalCharge
      rw [visited_all (h.2 bu (List.mem_of_getElem? hi)).1]
      simp only [Except.map, foldl_sum, zero_add]
    · unfold Beam.getTotalCharge
      rw [visited_all h.1]
      have key : ∀ (l : List Bunch) (c : ℝ), (∀ bu ∈ l, Bunch.WF bu) →
          l.foldlM (fun (c : ℝ) (bu : Bunch) => bu.getTotalCharge.map (fun q => c + q)) c
            = (.ok (c + (l.map (fun bu => (bu.P.map Particle.getCharge).sum)).sum) : Except Err ℝ) := by
        intro l
        induction l with
        | nil => intro c _; simp; rfl
        | cons bu l ih =>
          intro c hl
          rw [List.foldlM_cons]
          have : bu.getTotalCharge = .ok (bu.P.map Particle.getCharge).sum := by
            unfold Bunch.getTotalCharge
            rw [visited_all (hl bu (by simp)).1]
            simp only [Except.map, foldl_sum, zero_add]
          rw [this]
          show List.foldlM _ (c + (bu.P.map Particle.getCharge).sum) l = _
          rw [ih _ (fun q hq => hl q (by simp [hq]))]
          simp [add_assoc]
      have := key b.B 0 h.2
      simp only [zero_add] at this
      exact this

/-- C31: adding a bunch appends it; clearing empties the beam. -/
theorem C31_beam_add {b : Beam} (hr : b.Reachable) (bu : Bunch) (hbu : bu.Reachable) :
    (b.Add bu).getNOB = b.getNOB + 1 ∧ (b.Add bu).getBunch b.getNOB = .ok (some bu) ∧
    (∀ i : Nat, i < b.getNOB → (b.Add bu).getBunch i = b.getBunch i) ∧
    (∃ n, b.getNOP = .ok n ∧ (b.Add bu).getNOP = .ok (n + bu.getNOP)) ∧
    b.clear.getNOB = 0 ∧ b.clear.getNOP = .ok 0 ∧ b.clear.getTotalCharge = .ok 0 ∧ b.clear.NOTS = 0 := by
  have h := Beam.wf_reachable hr
  have h' := Beam.wf_reachable (.Add bu hr hbu)
  refine ⟨rfl, ?_, fun i hi => ?_, ⟨(b.B.map Bunch.getNOP).sum, ?_, ?_⟩, rfl, rfl, rfl, rfl⟩
  · rw [getBunch_spec h']
    simp [Beam.Add, Beam.getNOB, h.1]
  · rw [getBunch_spec h, getBunch_spec h']
    simp only [Beam.getNOB, h.1] at hi
    simp [Beam.Add, List.getElem?_append_left hi]
  · unfold Beam.getNOP
    rw [visited_all h.1]
    simp only [Except.map, foldl_sum_nat, zero_add]
  · unfold Beam.getNOP
    rw [visited_all h'.1]
    simp [Except.map, foldl_sum_nat, Beam.Add]

/-- non-vacuity: a reachable beam of two bunches with three particles -/
noncomputable def demoBeam : Beam :=
  (Beam.empty.Add (Bunch.ofCount 1 (-1) 1)).Add (Bunch.ofCount 2 1 1)

theorem demoBeam_reachable : demoBeam.Reachable := .Add _ (.Add _ .empty (.ofCount _ _ _)) (.ofCount _ _ _)

example : demoBeam.getNOB = 2 ∧ demoBeam.getNOP = .ok 3 ∧ demoBeam.getTotalCharge = .ok ElementaryCharge := by
  refine ⟨rfl, rfl, ?_⟩
  simp [demoBeam, Beam.getTotalCharge, Beam.Add, Beam.empty, Bunch.getTotalCharge, Bunch.ofCount, visited, Particle.getCharge, Particle.new]
  simp [Except.map, bind, Except.bind, pure, Except.pure, List.replicate]

/-! ## C30 correlations of bunches -/

/-- specification: the six phase space coordinates (x,y,z,px,py,pz) in order -/
noncomputable def phaseCoord (k : Int) (X P : Vec) : ℝ := [X.x, X.y, X.z, P.x, P.y, P.z].getD k.toNat 0

theorem coord_eq {k : Int} (h0 : 0 ≤ k) (h6 : k < 6) (X P : Vec) : Bunch.coord k X P = phaseCoord k X P := by
  have : k = 0 ∨ k = 1 ∨ k = 2 ∨ k = 3 ∨ k = 4 ∨ k = 5 := by omega
  rcases this with rfl | rfl | rfl | rfl | rfl | rfl <;> simp [Bunch.coord, phaseCoord]

theorem setCoord_eq {k l : Int} (h0 : 0 ≤ k) (h6 : k < 6) (l0 : 0 ≤ l) (l6 : l < 6) (X P : Vec) (v : ℝ) :
    phaseCoord l (Bunch.setCoord k X P v).1 (Bunch.setCoord k X P v).2 = if l = k then v else phaseCoord l X P := by
  have hk : k = 0 ∨ k = 1 ∨ k = 2 ∨ k = 3 ∨ k = 4 ∨ k = 5 := by omega
  have hl : l = 0 ∨ l = 1 ∨ l = 2 ∨ l = 3 ∨ l = 4 ∨ l = 5 := by omega
  rcases hk with rfl | rfl | rfl | rfl | rfl | rfl <;> rcases hl with rfl | rfl | rfl | rfl | rfl | rfl <;>
    simp [Bunch.setCoord, phaseCoord]

/-- the first stored point of a particle -/
structure FirstPoint (p : Particle) (t : ℝ) (X P A : Vec) : Prop where
  time : p.TrajTime 0 = .ok t
  pos : p.TrajPoint 0 = .ok X
  mom : p.TrajMomentum 0 = .ok P
  acc : p.TrajAccel 0 = .ok A

theorem firstPoint_of_reachable {p : Particle} (h : p.Reachable) (hn : 1 ≤ p.getNP) : ∃ t X P A, FirstPoint p t X P A := by
  have hc := cons_reachable h
  have ⟨h1, h2, h3, h4⟩ := hc
  simp only [Particle.getNP] at hn
  exact ⟨_, _, _, _, TrajTime_of_get hc (n := 0) (List.getElem?_eq_getElem (by omega)),
    TrajPoint_of_get hc (n := 0) (List.getElem?_eq_getElem (by omega)),
    TrajMomentum_of_get hc (n := 0) (List.getElem?_eq_getElem (by omega)),
    TrajAccel_of_get hc (n := 0) (List.getElem?_eq_getElem (by omega))⟩

theorem firstPoint_init (p : Particle) (t : ℝ) (X P A : Vec) : FirstPoint (p.initTrajectory t X P A) t X P A := by
  constructor <;> simp [Particle.initTrajectory, Particle.TrajTime, Particle.TrajPoint, Particle.TrajMomentum, Particle.TrajAccel, Particle.vecAt]

open Classical in
/-- the value of a coordinate of the first point -/
noncomputable def firstCoord (k : Int) (p : Particle) : ℝ :=
  match p.TrajPoint 0, p.TrajMomentum 0 with
  | .ok X, .ok P => phaseCoord k X P
  | _, _ => 0

theorem firstCoord_eq {p : Particle} {t : ℝ} {X P A : Vec} (h : FirstPoint p t X P A) (k : Int) :
    firstCoord k p = phaseCoord k X P := by simp [firstCoord, h.pos, h.mom]

theorem mapM_ok' {α β} (f : α → Except Err β) (g : α → β) (l : List α) (h : ∀ a ∈ l, f a = .ok (g a)) :
    l.mapM f = .ok (l.map g) := by
  induction l with
  | nil => rfl
  | cons a l ih =>
    rw [List.mapM_cons, h a (by simp), ih (fun b hb => h b (by simp [hb]))]
    rfl

/-- C30: adding a correlation to a bunch adds `factor*(independent - mean)` to the dependent coordinate of every
particle; all other coordinates, start times, accelerations, charges and masses stay; the trajectory is reset to
its first point; the sum (hence the mean) of the dependent coordinate is preserved. -/
theorem C30_bunch {b : Bunch} (hr : b.Reachable) (ind dep : Int) (f : ℝ)
    (hi : 0 ≤ ind ∧ ind < 6) (hd : 0 ≤ dep ∧ dep < 6) (hne : dep ≠ ind)
    (hp : ∀ (i : Nat) (p : Particle), b.getParticle i = .ok (some p) → 1 ≤ p.getNP) :
    ∃ (b' : Bunch) (old new : List Particle) (mean : ℝ), b.addCorrelation ind dep f = .ok b' ∧
      b'.getNOP = b.getNOP ∧ old.length = b.getNOP ∧ new.length = b.getNOP ∧
      (∀ i : Nat, b.getParticle i = .ok old[i]?) ∧ (∀ i : Nat, b'.getParticle i = .ok new[i]?) ∧
      mean * b.getNOP = (old.map (firstCoord ind)).sum ∧
      (∀ (i : Nat) (p p' : Particle), old[i]? = some p → new[i]? = some p' →
        p'.getNP = 1 ∧ p'.Charge = p.Charge ∧ p'.Mass = p.Mass ∧
        p'.TrajTime 0 = p.TrajTime 0 ∧ p'.TrajAccel 0 = p.TrajAccel 0 ∧
        firstCoord dep p' = firstCoord dep p + f * (firstCoord ind p - mean) ∧
        ∀ k, 0 ≤ k → k < 6 → k ≠ dep → firstCoord k p' = firstCoord k p) ∧
      (new.map (firstCoord dep)).sum = (old.map (firstCoord dep)).sum := by
  have h := Bunch.wf_reachable hr
  have hfp : ∀ p ∈ b.P, ∃ t X P A, FirstPoint p t X P A := by
    intro p hpm
    obtain ⟨i, hi', rfl⟩ := List.getElem_of_mem hpm
    refine firstPoint_of_reachable (h.2 _ hpm) (hp i _ ?_)
    rw [getParticle_spec h]
    simp [List.getElem?_eq_getElem hi']
  have hterm : ∀ p ∈ b.P, Bunch.corrTerm ind p = .ok (firstCoord ind p) := by
    intro p hpm
    obtain ⟨t, X, P, A, hF⟩ := hfp p hpm
    simp only [Bunch.corrTerm, hF.pos, hF.mom]
    rw [firstCoord_eq hF, ← coord_eq hi.1 hi.2]; rfl
  have hmean : b.corrMean ind = .ok ((b.P.map (firstCoord ind)).sum / b.NOP) := by
    unfold Bunch.corrMean
    rw [visited_all h.1]
    show (do let terms ← b.P.mapM (Bunch.corrTerm ind); return terms.sum / (b.NOP : ℝ)) = _
    rw [mapM_ok' _ _ _ hterm]
    rfl
  obtain ⟨mean, hm⟩ : ∃ m, m = (b.P.map (firstCoord ind)).sum / b.NOP := ⟨_, rfl⟩
  rw [← hm] at hmean
  have hmul : mean * b.NOP = (b.P.map (firstCoord ind)).sum := by
    rw [hm]
    by_cases h0 : b.NOP = 0
    · have : b.P = [] := by rw [h.1] at h0; exact List.eq_nil_of_length_eq_zero h0
      simp [this]
    · have : (b.NOP : ℝ) ≠ 0 := by exact_mod_cast h0
      field_simp
  have hg : ∀ p : Particle, ∃ p', p ∈ b.P → Bunch.corrParticle ind dep f mean p = .ok p' ∧
        p'.getNP = 1 ∧ p'.Charge = p.Charge ∧ p'.Mass = p.Mass ∧
        p'.TrajTime 0 = p.TrajTime 0 ∧ p'.TrajAccel 0 = p.TrajAccel 0 ∧
        firstCoord dep p' = firstCoord dep p + f * (firstCoord ind p - mean) ∧
        ∀ k, 0 ≤ k → k < 6 → k ≠ dep → firstCoord k p' = firstCoord k p := by
    intro p
    by_cases hpm : p ∈ b.P
    · obtain ⟨t, X, P, A, hF⟩ := hfp p hpm
      refine ⟨p.initTrajectory t (Bunch.setCoord dep X P (Bunch.coord dep X P + f * (Bunch.coord ind X P - mean))).1
        (Bunch.setCoord dep X P (Bunch.coord dep X P + f * (Bunch.coord ind X P - mean))).2 A, fun _ => ?_⟩
      have hF' := firstPoint_init p t (Bunch.setCoord dep X P (Bunch.coord dep X P + f * (Bunch.coord ind X P - mean))).1
        (Bunch.setCoord dep X P (Bunch.coord dep X P + f * (Bunch.coord ind X P - mean))).2 A
      refine ⟨by simp only [Bunch.corrParticle, hF.time, hF.pos, hF.mom, hF.acc], rfl, rfl, rfl, ?_, ?_, ?_, ?_⟩
      · rw [hF'.time, hF.time]
      · rw [hF'.acc, hF.acc]
      · rw [firstCoord_eq hF', firstCoord_eq hF, firstCoord_eq hF, setCoord_eq hd.1 hd.2 hd.1 hd.2, if_pos rfl, coord_eq hd.1 hd.2, coord_eq hi.1 hi.2]
      · intro k k0 k6 hk
        rw [firstCoord_eq hF', firstCoord_eq hF, setCoord_eq hd.1 hd.2 k0 k6, if_neg hk]
    · exact ⟨p, fun q => absurd q hpm⟩
  choose g hg using hg
  have hfor := forEach_ok (Bunch.corrParticle ind dep f mean) g b.P (fun p hpm => (hg p hpm).1)
  rw [← h.1] at hfor
  have hadd : b.addCorrelation ind dep f = .ok { b with P := b.P.map g } := by
    unfold Bunch.addCorrelation
    rw [if_pos ⟨hi.1, hi.2, hd.1, hd.2, hne⟩, hmean]
    simp only [hfor, Bunch.wrap]
  have hwf' : Bunch.WF { b with P := b.P.map g } := Bunch.wf_corr h ind dep f (Or.inl hadd)
  refine ⟨_, b.P, b.P.map g, mean, hadd, rfl, h.1.symm, by simp [Bunch.getNOP, h.1], ?_, ?_, hmul, ?_, ?_⟩
  · intro i; rw [getParticle_spec h]; simp
  · intro i; rw [getParticle_spec hwf']; simp
  · intro i p p' e e'
    have : p' = g p := by
      rw [List.getElem?_map, e] at e'
      simpa using e'.symm
    rw [this]
    exact (hg p (List.mem_of_getElem? e)).2
  · rw [List.map_map]
    have e : (b.P.map (firstCoord dep ∘ g)) = b.P.map (fun p => firstCoord dep p + f * (firstCoord ind p - mean)) := by
      apply List.map_congr_left
      intro p hpm
      exact (hg p hpm).2.2.2.2.2.2.1
    rw [e]
    have key : ∀ l : List Particle, (l.map (fun p => firstCoord dep p + f * (firstCoord ind p - mean))).sum
        = (l.map (firstCoord dep)).sum + f * ((l.map (firstCoord ind)).sum - mean * l.length) := by
      intro l
      induction l with
      | nil => simp
      | cons p l ih => simp only [List.map_cons, List.sum_cons, ih, List.length_cons]; push_cast; ring
    rw [key, ← hmul, ← h.1]; ring

/-- C30: illegal coordinate indices leave the bunch unchanged; a particle without trajectory raises `IOexception`
before anything is changed. -/
theorem C30_bunch_guards {b : Bunch} (hr : b.Reachable) (ind dep : Int) (f : ℝ) :
    ((ind < 0 ∨ 6 ≤ ind ∨ dep < 0 ∨ 6 ≤ dep ∨ dep = ind) → b.addCorrelation ind dep f = .ok b) ∧
    (0 ≤ ind ∧ ind < 6 → 0 ≤ dep ∧ dep < 6 → dep ≠ ind →
      (∃ (i : Nat) (p : Particle), b.getParticle i = .ok (some p) ∧ p.getNP = 0) → b.addCorrelation ind dep f = .error (.io, b)) := by
  have h := Bunch.wf_reachable hr
  constructor
  · intro hb
    unfold Bunch.addCorrelation
    rw [if_neg (by omega)]
  · rintro hi hd hne ⟨i, p, hp, hn⟩
    rw [getParticle_spec h] at hp
    simp only [Int.natCast_nonneg, if_true, Int.toNat_natCast] at hp
    injection hp with hp
    have hmem : p ∈ b.P := List.mem_of_getElem? hp
    have key : ∀ l : List Particle, (∀ q ∈ l, q.Reachable) → p ∈ l → l.mapM (Bunch.corrTerm ind) = .error .io := by
      intro l
      induction l with
      | nil => intro _ hm; simp at hm
      | cons q l ih =>
        intro hq hm
        rw [List.mapM_cons]
        by_cases hq0 : q.getNP = 0
        · have : Bunch.corrTerm ind q = .error .io := by
            simp only [Bunch.corrTerm, Particle.TrajPoint]
            rw [if_neg (by simp only [Particle.getNP] at hq0; omega)]
            rfl
          rw [this]; rfl
        · obtain ⟨t, X, P, A, hF⟩ := firstPoint_of_reachable (hq q (by simp)) (by omega)
          have : Bunch.corrTerm ind q = .ok (Bunch.coord ind X P) := by
            simp only [Bunch.corrTerm, hF.pos, hF.mom]; rfl
          rw [this]
          have hm' : p ∈ l := by
            rcases List.mem_cons.mp hm with rfl | hm
            · exact absurd hn hq0
            · exact hm
          rw [ih (fun r hr => hq r (by simp [hr])) hm']
          rfl
    unfold Bunch.addCorrelation
    rw [if_pos ⟨hi.1, hi.2, hd.1, hd.2, hne⟩]
    have : b.corrMean ind = .error .io := by
      unfold Bunch.corrMean
      rw [visited_all h.1]
      show (do let terms ← b.P.mapM (Bunch.corrTerm ind); return terms.sum / (b.NOP : ℝ)) = _
      rw [key b.P h.2 hmem]
      rfl
    rw [this]

/-- non-vacuity of C30_bunch: a bunch of two particles with trajectories -/
example : ∃ b : Bunch, b.Reachable ∧ b.getNOP = 2 ∧ ∀ (i : Nat) (p : Particle), b.getParticle i = .ok (some p) → 1 ≤ p.getNP := by
  have hr : ((Bunch.empty.Add ((Particle.new (-1) 1).initTrajectory 0 0 ⟨0, 0, 1⟩ 0)).Add
      ((Particle.new (-1) 1).initTrajectory 0 ⟨1, 0, 0⟩ ⟨0, 0, 2⟩ 0)).Reachable :=
    .Add _ (.Add _ .empty ((reachable_new (-1) 1).exec (.init 0 0 ⟨0, 0, 1⟩ 0))) ((reachable_new (-1) 1).exec (.init 0 ⟨1, 0, 0⟩ ⟨0, 0, 2⟩ 0))
  refine ⟨_, hr, rfl, ?_⟩
  intro i p hp
  rw [getParticle_spec (Bunch.wf_reachable hr)] at hp
  simp only [Int.natCast_nonneg, if_true, Int.toNat_natCast] at hp
  injection hp with hp
  have := List.mem_of_getElem? hp
  simp only [Bunch.Add, Bunch.empty, List.nil_append, List.cons_append, List.mem_cons, List.not_mem_nil, or_false] at this
  rcases this with rfl | rfl <;> simp [Particle.getNP, Particle.initTrajectory]

/-! ## C34 -/

/-- C34: buffering coordinates into a buffer for `size` particles writes six values each for the first
`min(NOP,size)` particles, in order, hence never more than `6*size` values. -/
theorem C34_buffer_coordinates {b : Bunch} (hr : b.Reachable) (size : Nat) :
    ∃ buf, b.bufferCoordinates size = .ok buf ∧ buf.length = 6 * min b.getNOP size ∧ buf.length ≤ 6 * size ∧
      ∀ (i : Nat) (p : Particle), i < min b.getNOP size → b.getParticle i = .ok (some p) →
        (buf.drop (6 * i)).take 6 = [p.XCur.x, p.XCur.y, p.XCur.z, p.PCur.x, p.PCur.y, p.PCur.z] := by
  have h := Bunch.wf_reachable hr
  have hn : (if b.NOP > size then size else b.NOP) = min b.NOP size := by split_ifs <;> omega
  have len : ∀ l : List Particle, (l.flatMap (fun p => Particle.comps p.XCur ++ Particle.comps p.PCur)).length = 6 * l.length := by
    intro l
    induction l with
    | nil => rfl
    | cons p l ih =>
      rw [List.flatMap_cons, List.length_append, ih]
      simp [Particle.comps]; omega
  refine ⟨(b.P.take (min b.NOP size)).flatMap (fun p => Particle.comps p.XCur ++ Particle.comps p.PCur), ?_, ?_, ?_, ?_⟩
  · unfold Bunch.bufferCoordinates
    rw [hn]
    simp only [visited]
    rw [if_pos (by rw [← h.1]; omega)]
    rfl
  · rw [len, List.length_take, Bunch.getNOP, ← h.1]; omega
  · rw [len, List.length_take, ← h.1]; omega
  · intro i p hi hp
    rw [getParticle_spec h] at hp
    simp only [Int.natCast_nonneg, if_true, Int.toNat_natCast] at hp
    injection hp with hp
    have hp' : (b.P.take (min b.NOP size))[i]? = some p := by
      rw [List.getElem?_take, if_pos (show i < min b.NOP size from hi), hp]
    generalize b.P.take (min b.NOP size) = l at hp'
    clear hp hi hn h hr len
    induction l generalizing i with
    | nil => simp at hp'
    | cons q l ih =>
      cases i with
      | zero =>
        simp at hp'
        subst hp'
        simp [Particle.comps]
      | succ i =>
        simp only [List.getElem?_cons_succ] at hp'
        rw [List.flatMap_cons, List.drop_append]
        have e : 6 * (i + 1) - (Particle.comps q.XCur ++ Particle.comps q.PCur).length = 6 * i := by
          simp [Particle.comps]; omega
        rw [e, List.drop_eq_nil_of_le (by simp [Particle.comps]), List.nil_append]
        exact ih i hp'

end Teufel
