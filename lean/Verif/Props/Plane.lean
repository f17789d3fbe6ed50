import Verif.Spec.Plane
import Verif.Lemmas.VayRun
import Verif.Lemmas.Frame
import Verif.Model.Elements
import Verif.Model.Beam

/-!
# C99: motion and radiation in the symmetry plane of the magnets
-/

namespace Teufel
open Vec Particle
namespace Plane
variable {π : Plane}

theorem along_add {u v : Vec} (hu : π.Along u) (hv : π.Along v) : π.Along (u + v) := by
  unfold Along at *; simp only [dot, add_x, add_y, add_z] at *; linarith
theorem along_sub {u v : Vec} (hu : π.Along u) (hv : π.Along v) : π.Along (u - v) := by
  unfold Along at *; simp only [dot, sub_x, sub_y, sub_z] at *; linarith
theorem along_mul {u : Vec} (hu : π.Along u) (k : ℝ) : π.Along (u * k) := by
  unfold Along at *; simp only [dot, mul_x, mul_y, mul_z] at *; linear_combination k * hu
theorem along_div {u : Vec} (hu : π.Along u) (k : ℝ) : π.Along (u / k) := by
  unfold Along at *; simp only [dot, div_x, div_y, div_z] at *; rw [div_mul_eq_mul_div, div_mul_eq_mul_div, div_mul_eq_mul_div, ← add_div, ← add_div, hu, zero_div]
theorem along_zero : π.Along 0 := by unfold Along; simp [dot]
theorem along_normalize {u : Vec} (hu : π.Along u) : π.Along (normalize u) := by rw [normalize_eq]; exact along_div hu _
theorem has_add {x v : Vec} (hx : π.Has x) (hv : π.Along v) : π.Has (x + v) := by
  unfold Has Along at *; simp only [dot, add_x, add_y, add_z, sub_x, sub_y, sub_z] at *; linarith
theorem has_sub {x y : Vec} (hx : π.Has x) (hy : π.Has y) : π.Along (x - y) := by
  unfold Has Along at *; simp only [dot, sub_x, sub_y, sub_z] at *; linarith
theorem has_lerp {x y : Vec} (hx : π.Has x) (hy : π.Has y) (k : ℝ) : π.Has (x * (1 - k) + y * k) := by
  unfold Has at *; simp only [dot, add_x, add_y, add_z, sub_x, sub_y, sub_z, mul_x, mul_y, mul_z] at *
  linear_combination (1 - k) * hx + k * hy

/-- the cross product with a perpendicular vector stays along the plane -/
theorem along_cross {u w : Vec} (hw : cross w π.normal = 0) : π.Along (cross u w) := by
  have h1 := congrArg Vec.x hw
  have h2 := congrArg Vec.y hw
  have h3 := congrArg Vec.z hw
  unfold Along
  simp only [cross, dot, zero_x, zero_y, zero_z] at *
  linear_combination u.x * h1 + u.y * h2 + u.z * h3

theorem perp_mul {w : Vec} (hw : cross w π.normal = 0) (k : ℝ) : cross (w * k) π.normal = 0 := by
  have : cross (w * k) π.normal = cross w π.normal * k := by ext <;> simp [cross] <;> ring
  rw [this, hw]; ext <;> simp
theorem perp_div {w : Vec} (hw : cross w π.normal = 0) (k : ℝ) : cross (w / k) π.normal = 0 := by
  have : cross (w / k) π.normal = cross w π.normal / k := by ext <;> simp [cross] <;> ring
  rw [this, hw]; ext <;> simp
theorem perp_add {w v : Vec} (hw : cross w π.normal = 0) (hv : cross v π.normal = 0) : cross (w + v) π.normal = 0 := by
  have : cross (w + v) π.normal = cross w π.normal + cross v π.normal := by ext <;> simp [cross] <;> ring
  rw [this, hw, hv]; ext <;> simp
/-- the cross product of two directions along the plane is perpendicular to it -/
theorem perp_cross {u v : Vec} (hu : π.Along u) (hv : π.Along v) : cross (cross u v) π.normal = 0 := by
  unfold Along at *
  have : cross (cross u v) π.normal = v * dot u π.normal - u * dot v π.normal := by ext <;> simp [cross, dot] <;> ring
  rw [this, hu, hv]; ext <;> simp

theorem along_perp_mul {u w : Vec} (hu : π.Along u) (hw : cross w π.normal = 0) : π.Along (w * dot u w) := by
  have h1 := congrArg Vec.x hw
  have h2 := congrArg Vec.y hw
  have h3 := congrArg Vec.z hw
  by_cases hn : dot π.normal π.normal = 0
  · have hz : π.normal = 0 := by
      have h := hn
      simp only [dot] at h
      ext
      · simp; nlinarith [mul_self_nonneg π.normal.x, mul_self_nonneg π.normal.y, mul_self_nonneg π.normal.z]
      · simp; nlinarith [mul_self_nonneg π.normal.x, mul_self_nonneg π.normal.y, mul_self_nonneg π.normal.z]
      · simp; nlinarith [mul_self_nonneg π.normal.x, mul_self_nonneg π.normal.y, mul_self_nonneg π.normal.z]
    unfold Along
    rw [hz]; simp [dot]
  · have h0 : dot u w * dot π.normal π.normal = 0 := by
      unfold Along at hu
      simp only [cross, dot, zero_x, zero_y, zero_z] at *
      linear_combination (w.x * π.normal.x + w.y * π.normal.y + w.z * π.normal.z) * hu
        + (u.y * π.normal.z - u.z * π.normal.y) * h1 + (u.z * π.normal.x - u.x * π.normal.z) * h2 + (u.x * π.normal.y - u.y * π.normal.x) * h3
    have : dot u w = 0 := by
      rcases mul_eq_zero.mp h0 with h | h
      · exact h
      · exact absurd h hn
    rw [this]
    unfold Along; simp [dot]

/-! ### one step -/

theorem along_momentum {P E B : Vec} (qmt2 : ℝ) (hP : π.Along P) (hE : π.Along E) (hB : cross B π.normal = 0) : π.Along (vayMomentum qmt2 P E B) := by
  unfold vayMomentum
  have hu : π.Along (P + E / SpeedOfLight * qmt2) := along_add hP (along_mul (along_div hE _) _)
  have hw : cross (B * qmt2 / vayGamma qmt2 P E B) π.normal = 0 := perp_div (perp_mul hB _) _
  exact along_div (along_add (along_add hu (along_perp_mul hu hw)) (along_cross hw)) _

theorem along_accel {P E B : Vec} (qm : ℝ) (hP : π.Along P) (hE : π.Along E) (hB : cross B π.normal = 0) : π.Along (vayAccel qm P E B) := by
  exact along_mul (along_add (along_cross hB) (along_div hE _)) _

/-- the state of a particle in the plane; `n` accelerations may be arbitrary -/
structure Flat (π : Plane) (n : Nat) (p : Particle) : Prop where
  points : ∀ x ∈ p.X, π.Has x
  momenta : ∀ m ∈ p.P, π.Along m
  accels : ∀ a ∈ p.A.drop n, π.Along a
  long : n ≤ p.A.length
  here : π.Has p.XCur
  carried : π.Along p.VYp

theorem flat_step {n : Nat} {p q : Particle} {f : FieldFn} (hf : π.Guides f) (hp : Flat π n p) (h : p.StepVay f = .ok q) : Flat π n q := by
  obtain ⟨EB, hEB, rfl⟩ := StepVay_ok h
  have hx : π.Has (p.XCur + p.VYp / p.VYgamma * SpeedOfLight * p.dt) := has_add hp.here (along_mul (along_mul (along_div hp.carried _) _) _)
  obtain ⟨hE, hB⟩ := hf _ _ _ hx hEB
  have hP : π.Along (p.VYp + (EB.E / SpeedOfLight + cross (p.VYp / p.VYgamma) EB.B) * p.qmt2) :=
    along_add hp.carried (along_mul (along_add (along_div hE _) (along_cross hB)) _)
  constructor
  · intro x h
    rcases List.mem_append.mp h with h | h
    · exact hp.points x h
    · rw [List.mem_singleton.mp h]; exact hx
  · intro m h
    rcases List.mem_append.mp h with h | h
    · exact hp.momenta m h
    · rw [List.mem_singleton.mp h]; exact hP
  · intro a h
    simp only [Particle.storeTrajectoryPoint] at h
    rw [List.drop_append_of_le_length hp.long] at h
    rcases List.mem_append.mp h with h | h
    · exact hp.accels a h
    · rw [List.mem_singleton.mp h]; exact along_accel _ hP hE hB
  · simp only [Particle.storeTrajectoryPoint, List.length_append]
    have := hp.long
    omega
  · exact hx
  · exact along_momentum _ hP hE hB

theorem flat_steps {n : Nat} : ∀ {fs : List FieldFn} {p q : Particle}, (∀ f ∈ fs, π.Guides f) → Flat π n p → p.steps fs = .ok q → Flat π n q
  | [], p, q, _, hp, h => by cases h; exact hp
  | f :: fs, p, q, hf, hp, h => by
    unfold Particle.steps at h
    rw [List.foldlM_cons] at h
    cases h1 : p.StepVay f with
    | error e => rw [h1] at h; cases h
    | ok p1 =>
      rw [h1] at h
      exact flat_steps (fun g hg => hf g (List.mem_cons_of_mem _ hg)) (flat_step (hf f (List.mem_cons_self ..)) hp h1) h

theorem flat_init {p q : Particle} {dt : ℝ} {f : FieldFn} (hf : π.Guides f) (hX : ∀ x ∈ p.X, π.Has x) (hP : ∀ m ∈ p.P, π.Along m) (hc : p.Cons)
    (h : p.InitVay dt f = .ok q) : Flat π (p.NP - 1) q := by
  obtain ⟨_, _, t, x, pm, EB, h1, h2, h3, hA, hEB, rfl⟩ := InitVay_ok h
  have hx := hX x (List.mem_of_getLast? h2)
  have hm := hP pm (List.mem_of_getLast? h3)
  obtain ⟨hE, hB⟩ := hf _ _ _ hx hEB
  have hl : p.A.dropLast.length = p.NP - 1 := by rw [List.length_dropLast, hc.2.2.2]
  constructor
  · exact hX
  · exact hP
  · intro a h
    simp only at h
    rw [List.drop_append_of_le_length (by omega), ← hl, List.drop_length, List.nil_append] at h
    rw [List.mem_singleton.mp h]
    exact along_accel _ hm hE hB
  · simp only [List.length_append]; omega
  · exact hx
  · exact along_momentum _ hm hE hB

theorem mem_of_TrajPoint {p : Particle} {i : Int} {x : Vec} (h : p.TrajPoint i = .ok x) : x ∈ p.X := by
  unfold Particle.TrajPoint vecAt at h
  split at h
  · split at h
    · rename_i h1; cases h; exact List.mem_of_getElem? h1
    · cases h
  · cases h

theorem mem_of_TrajMomentum {p : Particle} {i : Int} {x : Vec} (h : p.TrajMomentum i = .ok x) : x ∈ p.P := by
  unfold Particle.TrajMomentum vecAt at h
  split at h
  · split at h
    · rename_i h1; cases h; exact List.mem_of_getElem? h1
    · cases h
  · cases h

/-- C99, motion: a particle which starts in the plane, with a momentum along it, stays exactly in the plane as long as, in the plane, the electric field is along
the plane and the magnetic field perpendicular to it; its momentum and its acceleration stay along the plane. -/
theorem C99_motion (π : Plane) {f : FieldFn} {fs : List FieldFn} (hf : π.Guides f) (hfs : ∀ g ∈ fs, π.Guides g) (p q r : Particle) (hp : p.Reachable) (dt : ℝ)
    (hX : ∀ i x, p.TrajPoint i = .ok x → π.Has x) (hP : ∀ i m, p.TrajMomentum i = .ok m → π.Along m)
    (hq : p.InitVay dt f = .ok q) (hr : q.steps fs = .ok r) :
    (∀ i x, r.TrajPoint i = .ok x → π.Has x) ∧ (∀ i m, r.TrajMomentum i = .ok m → π.Along m) ∧
    ∀ (i : Nat) a, p.getNP ≤ i + 1 → r.TrajAccel i = .ok a → π.Along a := by
  have hc := cons_reachable hp
  have hX' : ∀ x ∈ p.X, π.Has x := by
    intro x hx
    obtain ⟨n, hn⟩ := List.mem_iff_getElem?.mp hx
    exact hX n x (TrajPoint_of_get hc hn)
  have hP' : ∀ x ∈ p.P, π.Along x := by
    intro x hx
    obtain ⟨n, hn⟩ := List.mem_iff_getElem?.mp hx
    exact hP n x (TrajMomentum_of_get hc hn)
  have h := flat_steps hfs (flat_init hf hX' hP' hc hq) hr
  refine ⟨fun i x hx => h.points x (mem_of_TrajPoint hx), fun i m hm => h.momenta m (mem_of_TrajMomentum hm), fun i a hi ha => ?_⟩
  have h1 := get_of_TrajAccel ha
  have hi' : p.NP ≤ i + 1 := hi
  refine h.accels a (List.mem_iff_getElem?.mpr ⟨i - (p.NP - 1), ?_⟩)
  rw [List.getElem?_drop, ← h1]
  congr 1
  omega

/-! ### radiation -/

theorem pol_add {f g : EMField} (hf : π.Polarised f) (hg : π.Polarised g) : π.Polarised (f + g) := ⟨along_add hf.1 hg.1, perp_add hf.2 hg.2⟩
theorem pol_mul {f : EMField} (hf : π.Polarised f) (k : ℝ) : π.Polarised (f * k) := ⟨along_mul hf.1 k, perp_mul hf.2 k⟩
theorem pol_zero : π.Polarised 0 := ⟨along_zero, by ext <;> simp [cross]⟩

theorem along_double {u v w : Vec} (hv : π.Along v) (hw : π.Along w) : π.Along (cross u (cross v w)) := along_cross (perp_cross hv hw)

theorem pol_lwField (q : ℝ) {x b bp obs : Vec} (g2 : ℝ) (hx : π.Has x) (hb : π.Along b) (hbp : π.Along bp) (ho : π.Has obs) : π.Polarised (lwField q x b bp g2 obs) := by
  have hN : π.Along (normalize (obs - x)) := along_normalize (has_sub ho hx)
  have hE : π.Along (lwField q x b bp g2 obs).E := by
    simp only [lwField]
    exact along_mul (along_add (along_div (along_sub hN hb) _) (along_div (along_double (along_sub hN hb) hbp) _)) _
  exact ⟨hE, perp_div (perp_cross hN hE) _⟩

/-- the stored trajectory is in the plane -/
structure Orbit (π : Plane) (p : Particle) : Prop where
  points : ∀ (i : Nat) x, p.TrajPoint i = .ok x → π.Has x
  momenta : ∀ (i : Nat) m, p.TrajMomentum i = .ok m → π.Along m
  accels : ∀ (i : Nat) a, p.TrajAccel i = .ok a → π.Along a

theorem pol_index {p : Particle} (hp : Orbit π p) {obs : Vec} (ho : π.Has obs) (i : Nat) {F : EMField} (h : p.RetardedFieldIdx i obs = .ok F) : π.Polarised F := by
  unfold RetardedFieldIdx at h
  cases h1 : p.TrajPoint i with
  | error e => rw [h1] at h; cases h
  | ok x =>
    cases h2 : p.TrajMomentum i with
    | error e => rw [h1, h2] at h; cases h
    | ok m =>
      cases h3 : p.TrajAccel i with
      | error e => rw [h1, h2, h3] at h; cases h
      | ok a =>
        simp only [h1, h2, h3, bind, Except.bind] at h
        split at h
        · cases h
        · cases h
          exact pol_lwField _ _ (hp.points i x h1) (along_div (hp.momenta i m h2) _) (along_div (hp.accels i a h3) _) ho

theorem pol_lin {f1 f2 : EMField} (h1 : π.Polarised f1) (h2 : π.Polarised f2) (a b t : ℝ) : π.Polarised (linField f1 f2 a b t) := pol_add (pol_mul h1 _) (pol_mul h2 _)

theorem pol_adds {t0 dt : ℝ} {n : Nat} {a b : ℝ} {f1 f2 : EMField} (h1 : π.Polarised f1) (h2 : π.Polarised f2) {l : List (Int × EMField)} (h : stepAdds t0 dt n a b f1 f2 = .ok l) :
    ∀ x ∈ l, π.Polarised x.2 := by
  have hl := fun t => pol_lin h1 h2 a b t
  simp only [stepAdds] at h
  split_ifs at h <;> cases h <;> intro x hx <;> simp only [List.mem_append, List.mem_map, List.mem_cons, List.not_mem_nil, or_false, List.append_nil] at hx
  all_goals
    first
    | (rcases hx with (hx | ⟨i, _, rfl⟩) | hx
       · subst hx; exact pol_mul (pol_mul (pol_add h1 (hl _)) _) _
       · exact hl _
       · subst hx; exact pol_mul (pol_mul (pol_add (hl _) h2) _) _)
    | (rcases hx with ⟨i, _, rfl⟩ | hx
       · exact hl _
       · subst hx; exact pol_mul (pol_mul (pol_add (hl _) h2) _) _)
    | (rcases hx with hx | ⟨i, _, rfl⟩
       · subst hx; exact pol_mul (pol_mul (pol_add h1 (hl _)) _) _
       · exact hl _)
    | (obtain ⟨i, _, rfl⟩ := hx; exact hl _)
    | (subst hx; exact pol_mul (pol_mul (pol_add h1 h2) _) _)

/-- all samples of a trace -/
def PolTrace (π : Plane) (tr : FieldTrace) : Prop := ∀ f ∈ tr.trace, π.Polarised f

theorem pol_addInt {tr tr' : FieldTrace} {i : Int} {f : EMField} (ht : PolTrace π tr) (hf : π.Polarised f) (h : addInt tr i f = .ok tr') : PolTrace π tr' := by
  unfold addInt at h
  split at h
  · cases h
  · unfold FieldTrace.addAt at h
    split at h
    · cases h
    · split at h
      · rename_i g hg
        cases h
        intro x hx
        rcases List.mem_or_eq_of_mem_set hx with hx | rfl
        · exact ht x hx
        · exact pol_add (ht g (List.mem_of_getElem? hg)) hf
      · cases h

theorem foldlM_inv {α β : Type} {I : β → Prop} {g : β → α → Except Err β} : ∀ (l : List α) (b b' : β), (∀ a ∈ l, ∀ b b', I b → g b a = .ok b' → I b') → I b → l.foldlM g b = .ok b' → I b'
  | [], b, b', _, hb, h => by cases h; exact hb
  | a :: l, b, b', hg, hb, h => by
    rw [List.foldlM_cons] at h
    cases h1 : g b a with
    | error e => rw [h1] at h; cases h
    | ok b1 =>
      rw [h1] at h
      exact foldlM_inv l b1 b' (fun x hx => hg x (List.mem_cons_of_mem _ hx)) (hg a (List.mem_cons_self ..) b b1 hb h1) h

theorem pol_integrate {p : Particle} (hp : Orbit π p) {obs : Vec} (ho : π.Has obs) {tr tr' : FieldTrace} (ht : PolTrace π tr) (h : p.integrateFieldTrace obs tr = .ok tr') : PolTrace π tr' := by
  unfold integrateFieldTrace at h
  simp only at h
  split at h
  · cases h; exact ht
  split at h
  · cases h; exact ht
  split at h
  · cases h
  refine foldlM_inv (I := PolTrace π) _ _ _ ?_ ht h
  intro k _ b b' hb hk
  cases h1 : p.RetardedTime (k : Nat) obs with
  | error e => rw [h1] at hk; cases hk
  | ok t1 =>
  cases h2 : p.RetardedTime (k + 1 : Nat) obs with
  | error e => rw [h1, h2] at hk; cases hk
  | ok t2 =>
  simp only [h1, h2, bind, Except.bind] at hk
  split at hk
  · cases h3 : p.RetardedFieldIdx (k : Nat) obs with
    | error e => rw [h3] at hk; cases hk
    | ok f1 =>
    cases h4 : p.RetardedFieldIdx (k + 1 : Nat) obs with
    | error e => rw [h3, h4] at hk; cases hk
    | ok f2 =>
    simp only [h3, h4] at hk
    split at hk
    · cases hk
    · rename_i l hl
      have hadd := pol_adds (pol_index hp ho k h3) (pol_index hp ho (k + 1) h4) hl
      exact foldlM_inv (I := PolTrace π) l b b' (fun a ha b b' hb h => pol_addInt hb (hadd a ha) h) hb hk
  · cases hk; exact hb

/-- C99, radiation: an observer in the plane of the orbit records a field whose electric part is along the plane and whose magnetic part is perpendicular to it -/
theorem C99_polarisation (π : Plane) (b : Beam) (hb : ∀ bu ∈ b.B, ∀ p ∈ bu.P, Orbit π p) (obs : Vec) (ho : π.Has obs) (t0 dt : ℝ) (n : Nat) (tr : FieldTrace)
    (h : b.integrateFieldTrace obs (FieldTrace.new t0 dt n) = .ok tr) (i : Nat) (F : EMField) (hF : tr.getField i = .ok F) : π.Polarised F := by
  have key : PolTrace π tr := by
    unfold Beam.integrateFieldTrace at h
    cases hv : visited b.NOB b.B with
    | error e => rw [hv] at h; cases h
    | ok bs =>
      rw [hv] at h
      have hbs : ∀ bu ∈ bs, bu ∈ b.B := by
        intro bu hbu
        unfold visited at hv
        split at hv
        · cases hv; exact List.mem_of_mem_take hbu
        · cases hv
      refine foldlM_inv (I := PolTrace π) bs _ _ ?_ ?_ h
      · intro bu hbu t t' ht h'
        unfold Bunch.integrateFieldTrace at h'
        cases hw : visited bu.NOP bu.P with
        | error e => rw [hw] at h'; cases h'
        | ok ps =>
          rw [hw] at h'
          have hps : ∀ p ∈ ps, p ∈ bu.P := by
            intro p hp
            unfold visited at hw
            split at hw
            · cases hw; exact List.mem_of_mem_take hp
            · cases hw
          exact foldlM_inv (I := PolTrace π) ps _ _ (fun p hp t t' ht h => pol_integrate (hb bu (hbs bu hbu) p (hps p hp)) ho ht h) ht h'
      · intro f hf
        simp only [FieldTrace.new] at hf
        rw [List.eq_of_mem_replicate hf]
        exact pol_zero
  unfold FieldTrace.getField at hF
  split at hF
  · cases hF
  · split at hF
    · rename_i h1; cases hF; exact key _ (List.mem_of_getElem? h1)
    · cases hF

theorem orbit_mem {p : Particle} (hc : p.Cons) (hp : Orbit π p) : (∀ x ∈ p.X, π.Has x) ∧ (∀ m ∈ p.P, π.Along m) ∧ ∀ a ∈ p.A, π.Along a := by
  refine ⟨fun x hx => ?_, fun x hx => ?_, fun x hx => ?_⟩
  · obtain ⟨n, hn⟩ := List.mem_iff_getElem?.mp hx
    exact hp.points n x (TrajPoint_of_get hc hn)
  · obtain ⟨n, hn⟩ := List.mem_iff_getElem?.mp hx
    exact hp.momenta n x (TrajMomentum_of_get hc hn)
  · obtain ⟨n, hn⟩ := List.mem_iff_getElem?.mp hx
    exact hp.accels n x (TrajAccel_of_get hc hn)

theorem vecAt_mem {α : Type} {l : List α} {i : Nat} {a : α} (h : vecAt l i = .ok a) : a ∈ l := by
  unfold vecAt at h
  split at h
  · rename_i h1; cases h; exact List.mem_of_getElem? h1
  · cases h

theorem along_lerp {x y : Vec} (hx : π.Along x) (hy : π.Along y) (k : ℝ) : π.Along (x * (1 - k) + y * k) := along_add (along_mul hx _) (along_mul hy _)

/-- C99, radiation: the same for the field at a given time -/
theorem C99_snapshot (π : Plane) (p : Particle) (hr : p.Reachable) (hp : Orbit π p) (obs : Vec) (ho : π.Has obs) (t : ℝ) (F : EMField) (h : p.RetardedFieldAt t obs = .ok F) :
    π.Polarised F := by
  obtain ⟨hX, hP, hA⟩ := orbit_mem (cons_reachable hr) hp
  unfold RetardedFieldAt at h
  split at h
  · cases h
  cases h1 : vecAt p.X 0 with
  | error e => rw [h1] at h; cases h
  | ok X0 =>
  cases h2 : vecAt p.Time 0 with
  | error e => rw [h1, h2] at h; cases h
  | ok T0 =>
  cases h3 : vecAt p.P 0 with
  | error e => rw [h1, h2, h3] at h; cases h
  | ok P0 =>
  cases h4 : vecAt p.X (p.NP - 1) with
  | error e => rw [h1, h2, h3, h4] at h; cases h
  | ok XL =>
  cases h5 : vecAt p.Time (p.NP - 1) with
  | error e => rw [h1, h2, h3, h4, h5] at h; cases h
  | ok TL =>
  simp only [h1, h2, h3, h4, h5, bind, Except.bind] at h
  split at h
  · split at h
    · split at h
      · cases h
      · cases h
        have hb : π.Along (P0 / Real.sqrt (P0.abs2nd + 1)) := along_div (hP P0 (vecAt_mem h3)) _
        refine pol_lwField _ _ ?_ hb along_zero ho
        exact has_add (hX X0 (vecAt_mem h1)) (along_mul (along_mul hb _) _)
    · split at h
      · cases h
      · rename_i ij _
        cases hi : p.interpolate ij.1 ij.2 t obs with
        | error e => rw [hi] at h; cases h
        | ok src =>
          rw [hi] at h
          simp only [Except.map] at h
          split at h
          · cases h
          · cases h
            have hs : π.Has src.1.X ∧ π.Along src.1.beta ∧ π.Along src.1.betaPrime := by
              unfold interpolate at hi
              cases g1 : vecAt p.Time ij.1 with
              | error e => rw [g1] at hi; cases hi
              | ok t1 =>
              cases g2 : vecAt p.Time ij.2 with
              | error e => rw [g1, g2] at hi; cases hi
              | ok t2 =>
              cases g3 : vecAt p.X ij.1 with
              | error e => rw [g1, g2, g3] at hi; cases hi
              | ok X1 =>
              cases g4 : vecAt p.X ij.2 with
              | error e => rw [g1, g2, g3, g4] at hi; cases hi
              | ok X2 =>
              cases g5 : vecAt p.P ij.1 with
              | error e => rw [g1, g2, g3, g4, g5] at hi; cases hi
              | ok P1 =>
              cases g6 : vecAt p.P ij.2 with
              | error e => rw [g1, g2, g3, g4, g5, g6] at hi; cases hi
              | ok P2 =>
              cases g7 : vecAt p.A ij.1 with
              | error e => rw [g1, g2, g3, g4, g5, g6, g7] at hi; cases hi
              | ok A1 =>
              cases g8 : vecAt p.A ij.2 with
              | error e => rw [g1, g2, g3, g4, g5, g6, g7, g8] at hi; cases hi
              | ok A2 =>
              simp only [g1, g2, g3, g4, g5, g6, g7, g8, bind, Except.bind] at hi
              split at hi
              · cases hi
              split at hi
              · cases hi
              split at hi
              · cases hi
              · cases hi
                exact ⟨has_lerp (hX _ (vecAt_mem g3)) (hX _ (vecAt_mem g4)) _, along_div (along_lerp (hP _ (vecAt_mem g5)) (hP _ (vecAt_mem g6)) _) _,
                  along_div (along_lerp (hA _ (vecAt_mem g7)) (hA _ (vecAt_mem g8)) _) _⟩
            exact pol_lwField _ _ hs.1 hs.2.1 hs.2.2 ho
  · cases h; exact pol_zero

/-! ### the elements of a lattice and the horizontal plane -/

theorem perp_vertical {w : Vec} (h1 : w.x = 0) (h2 : w.z = 0) : cross w horizontal.normal = 0 := by
  ext <;> simp [cross, horizontal, h1, h2]

theorem along_horizontal {w : Vec} : horizontal.Along w ↔ w.y = 0 := by simp [Along, horizontal, dot]
theorem has_horizontal {w : Vec} : horizontal.Has w ↔ w.y = 0 := by simp [Has, horizontal, dot]
theorem has_moved {w o : Vec} (hw : horizontal.Has w) (ho : o.y = 0) : (w - o).y = 0 := by
  rw [has_horizontal] at hw; simp [hw, ho]

theorem guides_homogeneous {E B : Vec} (hE : E.y = 0) (hx : B.x = 0) (hz : B.z = 0) : horizontal.Guides (HomogeneousField E B).field := by
  intro t x EB _ h
  cases h
  exact ⟨along_horizontal.mpr hE, perp_vertical hx hz⟩

theorem guides_hardEdge (d : HardEdgeDipole) (hx : d.B_val.x = 0) (hz : d.B_val.z = 0) (t0 : ℝ) (o : Vec) : horizontal.Guides (LocalizedField d.LocalField t0 o).field := by
  intro t x EB _ h
  cases h
  refine ⟨along_zero, ?_⟩
  dsimp only
  split
  · exact perp_vertical hx hz
  · exact perp_vertical rfl rfl

theorem guides_softEdge (d : SoftEdgeDipole) (hx : d.B_val.x = 0) (hz : d.B_val.z = 0) (t0 : ℝ) (o : Vec) : horizontal.Guides (LocalizedField d.LocalField t0 o).field := by
  intro t x EB _ h
  simp only [LocalizedField, SoftEdgeDipole.LocalField] at h
  split at h
  · cases h
  · cases h
    exact ⟨along_zero, perp_mul (perp_vertical hx hz) _⟩

theorem perp_ramp {B : Vec} (hB : cross B horizontal.normal = 0) (z z1 z2 l : ℝ) : cross (rampField z z1 z2 l B) horizontal.normal = 0 := by
  unfold rampField
  dsimp only
  split <;> split <;> first | exact hB | exact perp_mul hB _ | exact perp_mul (perp_mul hB _) _

theorem guides_planar (u : PlanarUndulator) (t0 : ℝ) (o : Vec) (ho : o.y = 0) : horizontal.Guides (LocalizedField u.LocalField t0 o).field := by
  intro t x EB hx h
  cases h
  have hy := has_moved hx ho
  refine ⟨along_zero, ?_⟩
  dsimp only
  split
  · refine perp_ramp (perp_vertical rfl ?_) _ _ _ _
    simp [hy]
  · exact perp_vertical rfl rfl

theorem guides_gradient (u : TransverseGradientUndulator) (t0 : ℝ) (o : Vec) (ho : o.y = 0) : horizontal.Guides (LocalizedField u.LocalField t0 o).field := by
  intro t x EB hx h
  cases h
  have hy := has_moved hx ho
  refine ⟨along_zero, ?_⟩
  dsimp only
  split
  · refine perp_ramp (perp_vertical ?_ ?_) _ _ _ _
    · simp [TransverseGradientUndulator.core, hy]
    · simp [TransverseGradientUndulator.core, hy]
  · exact perp_vertical rfl rfl

theorem guides_wave (g : GaussianWave) (t0 : ℝ) (o : Vec) : horizontal.Guides (LocalizedField g.LocalField t0 o).field := by
  intro t x EB _ h
  simp only [LocalizedField, GaussianWave.LocalField] at h
  split at h
  · cases h
  · cases h
    exact ⟨along_horizontal.mpr rfl, perp_vertical rfl rfl⟩

theorem guides_packet (g : GaussianWave) (tau t0 : ℝ) (o : Vec) : horizontal.Guides (LocalizedField (g.PacketField tau) t0 o).field := by
  intro t x EB _ h
  simp only [LocalizedField, GaussianWave.PacketField] at h
  split at h
  · cases h
  · cases h
    exact ⟨along_horizontal.mpr rfl, perp_vertical rfl rfl⟩

theorem guides_lattice {L : Lattice} (hL : ∀ e ∈ L, π.Guides e.field) : π.Guides L.field := by
  intro t x EB hx h
  refine foldlM_inv (I := π.Polarised) L _ _ ?_ pol_zero h
  intro e he b b' hb h
  cases h1 : e.field t x with
  | error e => rw [h1] at h; cases h
  | ok f => rw [h1] at h; cases h; exact pol_add hb (hL e he t x f hx h1)

/-- an element standing on the table: homogeneous fields and dipoles with vertical magnetic field, undulators whose axis is in the plane, and light waves -/
inductive OnTable : GeneralField → Prop
  | background (E B : Vec) (hE : E.y = 0) (hx : B.x = 0) (hz : B.z = 0) : OnTable (HomogeneousField E B)
  | hardEdge (d : HardEdgeDipole) (hx : d.B_val.x = 0) (hz : d.B_val.z = 0) (t0 : ℝ) (o : Vec) : OnTable (LocalizedField d.LocalField t0 o)
  | softEdge (d : SoftEdgeDipole) (hx : d.B_val.x = 0) (hz : d.B_val.z = 0) (t0 : ℝ) (o : Vec) : OnTable (LocalizedField d.LocalField t0 o)
  | planar (u : PlanarUndulator) (t0 : ℝ) (o : Vec) (ho : o.y = 0) : OnTable (LocalizedField u.LocalField t0 o)
  | gradient (u : TransverseGradientUndulator) (t0 : ℝ) (o : Vec) (ho : o.y = 0) : OnTable (LocalizedField u.LocalField t0 o)
  | wave (g : GaussianWave) (t0 : ℝ) (o : Vec) : OnTable (LocalizedField g.LocalField t0 o)
  | packet (g : GaussianWave) (tau t0 : ℝ) (o : Vec) : OnTable (LocalizedField (g.PacketField tau) t0 o)

/-- C99, machines: a lattice of such elements keeps particles in the horizontal plane -/
theorem C99_lattice (L : Lattice) (hL : ∀ e ∈ L, OnTable e) : horizontal.Guides L.field := by
  apply guides_lattice
  intro e he
  cases hL e he with
  | background E B hE hx hz => exact guides_homogeneous hE hx hz
  | hardEdge d hx hz t0 o => exact guides_hardEdge d hx hz t0 o
  | softEdge d hx hz t0 o => exact guides_softEdge d hx hz t0 o
  | planar u t0 o ho => exact guides_planar u t0 o ho
  | gradient u t0 o ho => exact guides_gradient u t0 o ho
  | wave g t0 o => exact guides_wave g t0 o
  | packet g tau t0 o => exact guides_packet g tau t0 o

/-- non-vacuity: an undulator in the light of a laser, and a dipole -/
example : ∀ e ∈ [LocalizedField (PlanarUndulator.Setup 1 (1 / 20) 30).LocalField 0 ⟨0, 0, 1⟩, LocalizedField (GaussianWave.Setup 1e-6 1 1).LocalField 0 ⟨0, 0, 0⟩,
    LocalizedField (⟨⟨0, 1 / 2, 0⟩, 0, ⟨0, 0, -1⟩, ⟨0, 0, 1 / 5⟩, ⟨0, 0, 1⟩⟩ : HardEdgeDipole).LocalField 0 0], OnTable e := by
  intro e he
  simp only [List.mem_cons, List.not_mem_nil, or_false] at he
  rcases he with rfl | rfl | rfl
  · exact .planar _ _ _ rfl
  · exact .wave _ _ _
  · exact .hardEdge _ rfl rfl _ _

end Plane
end Teufel
