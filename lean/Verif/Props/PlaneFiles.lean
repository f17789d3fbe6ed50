import Verif.Props.Plane
import Verif.Props.ProgramConvergence

/-!
# C99: in the files of a run, the radiation of a plane orbit is linearly polarised in the plane
-/

namespace Teufel
open Vec Input

namespace Plane

variable {π : Plane}

/-- an FEL interaction with its electric field along the plane and its magnetic field perpendicular to it -/
def Radiates (π : Plane) (f : FEL) : Prop := π.Along f.ex ∧ cross f.ey π.normal = 0

theorem guides_fel {f : FEL} (hf : π.Radiates f) : π.Guides f.Field := by
  intro t x EB _ h
  unfold FEL.Field at h
  simp only [bind, Except.bind, pure, Except.pure] at h
  split at h
  · cases h
  split at h
  · cases h
  split at h
  · cases h
  split at h
  · cases h
  split at h
  · cases h
  · cases h
    exact ⟨along_mul hf.1 _, perp_div (perp_mul hf.2 _) _⟩

theorem fel_init {b : Beam} {f f' : FEL} (h : f.init b = .ok f') (hf : π.Radiates f) : π.Radiates f' := by
  unfold FEL.init at h
  simp only [bind, Except.bind, pure, Except.pure] at h
  split at h
  · cases h
  split at h
  · cases h
  split at h
  · cases h
  · cases h; exact hf

theorem fel_step {b : Beam} {f f' : FEL} (h : f.step b = .ok f') (hf : π.Radiates f) : π.Radiates f' := by
  unfold FEL.step at h
  simp only [bind, Except.bind, pure, Except.pure] at h
  split at h
  · cases h
  split at h
  · cases h
  split at h
  · cases h
  split at h
  · cases h
  split at h
  · cases h
  split at h
  · cases h
  · cases h
    split
    · exact hf
    · exact hf

/-- C99, interactions: the field of an interaction given by a propagation direction and a polarisation along the plane guides particles in the plane -/
theorem C99_interaction (π : Plane) (dt : ℝ) (i : FEL.Input) (f : FEL) (h : FEL.ofInput dt i = .ok f) (hprop : ∀ v, i.prop = some v → π.Along v) (hpol : ∀ v, i.pol = some v → π.Along v) :
    π.Radiates f ∧ π.Guides f.Field := by
  suffices π.Radiates f from ⟨this, guides_fel this⟩
  have hnorm : ∀ v w, π.Along v → normalizeE v = .ok w → π.Along w := by
    intro v w hv h
    unfold normalizeE at h
    split at h
    · cases h
    · cases h; exact along_normalize hv
  have hseed : ∀ g s, π.Radiates g → FEL.seed g s = .ok f → π.Radiates f := by
    intro g s hg h
    unfold FEL.seed at h
    split at h
    · cases h
    · cases h; exact hg
  unfold FEL.ofInput at h
  simp only [bind, Except.bind, pure, Except.pure] at h
  cases h1 : i.N with
  | none => rw [h1] at h; cases h
  | some n =>
  cases h2 : i.position with
  | none => rw [h1, h2] at h; cases h
  | some pos =>
  cases h3 : i.prop with
  | none => rw [h1, h2, h3] at h; cases h
  | some prop0 =>
  cases h4 : i.pol with
  | none => rw [h1, h2, h3, h4] at h; cases h
  | some pol =>
  simp only [h1, h2, h3, h4] at h
  split at h
  · cases h
  cases h6 : i.mode with
  | none => rw [h6] at h; cases h
  | some m =>
  simp only [h6] at h
  split at h
  · cases h
  cases h7 : normalizeE prop0 with
  | error e => rw [h7] at h; cases h
  | ok prop =>
  simp only [h7] at h
  have a1 := hnorm _ _ (hprop _ h3) h7
  cases h8 : normalizeE (pol - prop * dot pol prop) with
  | error e => rw [h8] at h; cases h
  | ok ex =>
  simp only [h8] at h
  have a2 := hnorm _ _ (along_sub (hpol _ h4) (along_mul a1 _)) h8
  split at h
  · cases h; exact ⟨a2, perp_cross a1 a2⟩
  · exact hseed _ _ ⟨a2, perp_cross a1 a2⟩ h

/-- non-vacuity: an interaction which propagates along z and is polarised along x -/
example : ∃ (i : FEL.Input) (f : FEL), FEL.ofInput 1 i = .ok f ∧ (∀ v, i.prop = some v → horizontal.Along v) ∧ (∀ v, i.pol = some v → horizontal.Along v) := by
  obtain ⟨f, hf, _⟩ := FEL.demoInput_constructed 1
  refine ⟨_, f, hf, ?_, ?_⟩
  · intro v hv
    simp only [FEL.demoInput, Option.some.injEq] at hv
    rw [← hv]; exact along_horizontal.mpr rfl
  · intro v hv
    simp only [FEL.demoInput, Option.some.injEq] at hv
    rw [← hv]; exact along_horizontal.mpr rfl

theorem pol_sum : ∀ {l : List EMField}, (∀ f ∈ l, π.Polarised f) → π.Polarised l.sum
  | [], _ => pol_zero
  | f :: l, h => by
    rw [List.sum_cons]
    exact pol_add (h f (List.mem_cons_self ..)) (pol_sum (fun g hg => h g (List.mem_cons_of_mem _ hg)))

theorem guides_coupled {lat : Lattice} (hl : π.Guides lat.field) {s : List FEL} (hs : ∀ f ∈ s, π.Radiates f) : π.Guides (Coupled.field lat s) := by
  intro t x EB hx h
  unfold Coupled.field at h
  cases h1 : Lattice.field lat t x with
  | error e => rw [h1] at h; cases h
  | ok F =>
  rw [h1] at h
  simp only [bind, Except.bind, pure, Except.pure] at h
  cases h2 : s.mapM (fun f : FEL => f.Field t x) with
  | error e => rw [h2] at h; cases h
  | ok Gs =>
  rw [h2] at h
  cases h
  refine pol_add (hl t x F hx h1) (pol_sum ?_)
  intro g hg
  obtain ⟨f, hf, hfg⟩ := mapM_mem h2 g hg
  exact guides_fel (hs f hf) t x g hx hfg

/-- `a` is the particle `q` after steps in guiding fields -/
def Led (π : Plane) (dt : ℝ) (q a : Particle) : Prop :=
  ∃ (f0 : FieldFn) (fs : List FieldFn) (a0 : Particle), π.Guides f0 ∧ (∀ g ∈ fs, π.Guides g) ∧ (q.initTrajectory q.tCur q.XCur q.PCur q.ACur).InitVay dt f0 = .ok a0 ∧ a0.steps fs = .ok a

theorem led_next {dt : ℝ} {f : FieldFn} (hf : π.Guides f) {q a b : Particle} (h : Led π dt q a) (hs : dropState (a.StepVay f) = .ok b) : Led π dt q b := by
  obtain ⟨f0, fs, a0, h1, h2, h3, h4⟩ := h
  refine ⟨f0, fs ++ [f], a0, h1, ?_, h3, ?_⟩
  · intro g hg
    rcases List.mem_append.mp hg with hg | hg
    · exact h2 g hg
    · rw [List.mem_singleton.mp hg]; exact hf
  · rw [Particle.steps_append_ok h4]
    unfold Particle.steps
    rw [List.foldlM_cons, dropState_ok hs]
    rfl

theorem led_orbit {dt : ℝ} {q a : Particle} (hq : q.Reachable) (hX : π.Has q.XCur) (hP : π.Along q.PCur) (h : Led π dt q a) : Orbit π a ∧ a.Reachable := by
  obtain ⟨f, fs, b, hf, hfs, h1, h2⟩ := h
  have r0 : (q.initTrajectory q.tCur q.XCur q.PCur q.ACur).Reachable := pres_exec hq (.init _ _ _ _) (Or.inl rfl)
  have r1 : b.Reachable := pres_exec r0 (.initVay dt f) (Or.inl h1)
  have r2 : ∀ (fs : List FieldFn) (b c : Particle), b.Reachable → b.steps fs = .ok c → c.Reachable := by
    intro fs
    induction fs with
    | nil => intro b c hb hc; rw [Particle.steps_nil] at hc; injection hc with hc; rw [← hc]; exact hb
    | cons g fs ih =>
      intro b c hb hc
      obtain ⟨d, d1, d2⟩ := Particle.steps_cons_ok hc
      exact ih d c (pres_exec hb (.stepVay g) (Or.inl d1)) d2
  obtain ⟨g1, g2, g3⟩ := C99_motion π hf hfs _ b a r0 dt
    (fun i x hx => by
      have := mem_of_TrajPoint hx
      simp only [Particle.initTrajectory, List.mem_singleton] at this
      rw [this]; exact hX)
    (fun i m hm => by
      have := mem_of_TrajMomentum hm
      simp only [Particle.initTrajectory, List.mem_singleton] at this
      rw [this]; exact hP) h1 h2
  refine ⟨⟨fun i => g1 i, fun i => g2 i, fun i x hx => g3 i x ?_ hx⟩, r2 _ _ _ r1 h2⟩
  show 1 ≤ i + 1
  omega

/-- the particles of the coupled calculation -/
theorem after_led {lat : Lattice} (hl : π.Guides lat.field) {dt : ℝ} {ps qs : List Particle} {s S : List FEL} (hs : ∀ f ∈ s, π.Radiates f) {k : Nat}
    (h : Coupled.after lat dt ps s k = .ok (qs, S)) : List.Forall₂ (Led π dt) ps qs ∧ ∀ f ∈ S, π.Radiates f := by
  induction k generalizing qs S with
  | zero =>
    unfold Coupled.after at h
    simp only [bind, Except.bind, pure, Except.pure] at h
    cases hq : ps.mapM (fun p => dropState ((p.initTrajectory p.tCur p.XCur p.PCur p.ACur).InitVay dt (Coupled.field lat s))) with
    | error e => rw [hq] at h; cases h
    | ok a =>
      rw [hq] at h
      simp only at h
      cases hi : s.mapM (FEL.init ⟨1, [⟨a.length, a⟩], 0, dt, .vay⟩) with
      | error e => rw [hi] at h; cases h
      | ok b =>
        rw [hi] at h
        simp only [Except.ok.injEq, Prod.mk.injEq] at h
        obtain ⟨rfl, rfl⟩ := h
        refine ⟨(forall₂_mapM hq).imp (fun _ _ hx => ⟨_, [], _, guides_coupled hl hs, by simp, dropState_ok hx, rfl⟩), ?_⟩
        intro f hf
        obtain ⟨g, hg, hgf⟩ := mapM_mem hi f hf
        exact fel_init hgf (hs g hg)
  | succ k ih =>
    unfold Coupled.after at h
    cases hb : Coupled.after lat dt ps s k with
    | error e => rw [hb] at h; cases h
    | ok r =>
      obtain ⟨a, c⟩ := r
      rw [hb] at h
      simp only [bind, Except.bind, pure, Except.pure] at h
      obtain ⟨ih, ihS⟩ := ih hb
      cases hq : a.mapM (fun p => dropState (p.StepVay (Coupled.field lat c))) with
      | error e => rw [hq] at h; cases h
      | ok a' =>
        rw [hq] at h
        simp only at h
        cases hi : c.mapM (FEL.step ⟨1, [⟨a'.length, a'⟩], k + 1, dt, .vay⟩) with
        | error e => rw [hi] at h; cases h
        | ok b =>
          rw [hi] at h
          simp only [Except.ok.injEq, Prod.mk.injEq] at h
          obtain ⟨rfl, rfl⟩ := h
          have hf := forall₂_mapM hq
          refine ⟨?_, ?_⟩
          · have hg := guides_coupled hl ihS
            clear * - hf ih hg
            induction ih generalizing a' with
            | nil => cases hf; exact .nil
            | cons hx _ ih2 =>
              cases hf with
              | cons hy hf => exact .cons (led_next hg hx hy) (ih2 _ hf)
          · intro f hf
            obtain ⟨g, hg, hgf⟩ := mapM_mem hi f hf
            exact fel_step hgf (ihS g hg)

/-- an orbit in a plane does not hit observers outside of it -/
theorem orbit_offLines {a : Particle} (ha : Orbit π a) {obs : Vec} (ho : ¬ π.Has obs) : a.OffLines obs := by
  refine ⟨fun x m hx hm s h => ho ?_, fun i x y hx hy s h => ho ?_⟩
  · rw [h]; exact has_add (ha.points 0 x hx) (along_mul (ha.momenta 0 m hm) s)
  · rw [h]; exact has_add (ha.points i x hx) (along_mul (has_sub (ha.points (i + 1) y hy) (ha.points i x hx)) s)

/-- what an observer in the plane records of one particle on an orbit in the plane -/
theorem pol_sample {o : Observer} {k : Observer.Key} {a : Particle} (ha : Orbit π a) (hr : a.Reachable) {t : ℝ} {X : Vec} (hX : o.samplePoint k = .ok (t, X)) (hx : π.Has X) {F : EMField}
    (h : o.particleSample k a = .ok F) : π.Polarised F := by
  have tr : ∀ (obs : Vec) (t0 dt : ℝ) (n : Nat), π.Has obs → (do let tr ← a.integrateFieldTrace obs (FieldTrace.new t0 dt n); tr.getField k.2) = Except.ok F → π.Polarised F := by
    intro obs t0 dt n ho h
    cases h1 : a.integrateFieldTrace obs (FieldTrace.new t0 dt n) with
    | error e => rw [h1] at h; cases h
    | ok tr =>
      rw [h1] at h
      have key := pol_integrate ha ho (tr := FieldTrace.new t0 dt n) (by
        intro f hf
        simp only [FieldTrace.new] at hf
        rw [List.eq_of_mem_replicate hf]
        exact pol_zero) h1
      have hF : tr.getField k.2 = .ok F := h
      unfold FieldTrace.getField at hF
      split at hF
      · cases hF
      · split at hF
        · rename_i h1; cases hF; exact key _ (List.mem_of_getElem? h1)
        · cases hF
  cases o with
  | screen s =>
    simp only [Observer.samplePoint, Except.ok.injEq, Prod.mk.injEq] at hX
    rw [← hX.2] at hx
    exact tr _ _ _ _ hx h
  | snapshot s =>
    simp only [Observer.samplePoint, Except.ok.injEq, Prod.mk.injEq] at hX
    rw [← hX.2] at hx
    exact C99_snapshot π a hr ha _ hx _ F h
  | point s =>
    simp only [Observer.samplePoint, Except.ok.injEq, Prod.mk.injEq] at hX
    rw [← hX.2] at hx
    exact tr _ _ _ _ hx h
  | mesh s =>
    simp only [Observer.samplePoint, Observer.particleSample] at hX h
    cases h1 : MeshObs.at' s.points k.1.1 with
    | error e => rw [h1] at hX; cases hX
    | ok pos =>
    cases h2 : MeshObs.at' s.A k.1.1 with
    | error e => rw [h1, h2] at hX; cases hX
    | ok tr0 =>
    rw [h1, h2] at hX h
    simp only [bind, Except.bind, pure, Except.pure, Except.ok.injEq, Prod.mk.injEq] at hX
    rw [← hX.2] at hx
    exact tr _ _ _ _ hx h

end Plane

namespace Lib
open Plane

/-- **C99 (files).** All particles start in a plane, with momenta along it; where the lattice has a field in the plane, its electric part is along the plane and its
magnetic part perpendicular to it; and so are the directions of electric and magnetic field of the interactions.  Then every field value in the files of the observers of the beam, at
places in the plane, has an electric part along the plane and a magnetic part perpendicular to it - for every input, every number of nodes, and whatever memory and random generator contain. -/
theorem C99_files (π : Plane) (L : Lib) (rnd : Nat → (Nat → Nat → ℝ) × (Nat → Nat → Nat → ℝ)) (J : Indet) (nodes : Nat) (hN : 0 < nodes) (doc : Xml) (fs : List OutFile) (p : Parsed) (m : Beam)
    (s : List FEL) (h : L.program rnd J nodes doc = .ok fs) (hp : (L.withRandom (rnd 0)).parse doc = .ok p) (hm : masterBeam p = .ok m)
    (hs : p.tracking.state.interactions.mapM id = .ok s) (hlat : π.Guides (Lattice.field p.lattice.lattice)) (hfel : ∀ f ∈ s, π.Radiates f)
    (hstart : ∀ q ∈ m.all, π.Has q.XCur ∧ π.Along q.PCur) :
    ∃ before files : List OutFile, fs = before ++ files ∧ files.length = p.observers.observers.length ∧
      ∀ (i : Nat) (spec : ObserverSpec), p.observers.observers[i]? = some spec → spec.source = .beam →
        ∃ d, files[i]? = some ⟨spec.file, d⟩ ∧ ∀ k ∈ spec.observer.keys, ∃ t X F, spec.observer.samplePoint k = .ok (t, X) ∧ Shows spec.observer d k X F ∧ (π.Has X → π.Polarised F) := by
  obtain ⟨p', m', s', hp', hm', hs', before, files, hfs, hlen, hfiles⟩ := C83_coupled_partial L rnd J nodes hN doc fs h
  rw [hp] at hp'
  injection hp' with hp'
  subst hp'
  rw [hm] at hm'
  injection hm' with hm'
  subst hm'
  rw [hs] at hs'
  injection hs' with hs'
  subst hs'
  refine ⟨before, files, hfs, hlen, ?_⟩
  intro i spec hi hsrc
  obtain ⟨d, hd, hb, _⟩ := hfiles i spec hi
  refine ⟨d, hd, ?_⟩
  intro k hk
  obtain ⟨ps, S, hps, hsh⟩ := hb hsrc
  obtain ⟨t, X, Fs, e1, e2, e3⟩ := hsh k hk
  refine ⟨t, X, Fs.sum, e1, e3, fun hX => pol_sum ?_⟩
  intro F hF
  obtain ⟨a, ha, haF⟩ := mapM_mem e2 F hF
  have hled := (after_led hlat hfel hps).1
  obtain ⟨q, hq, hqa⟩ : ∃ q ∈ m.all, Led π p.tracking.timeStep q a := by
    clear * - hled ha
    generalize m.all = l at hled ⊢
    induction hled with
    | nil => cases ha
    | cons hx _ ih =>
      rcases List.mem_cons.mp ha with rfl | ha
      · exact ⟨_, List.mem_cons_self .., hx⟩
      · obtain ⟨q, h1, h2⟩ := ih ha
        exact ⟨q, List.mem_cons_of_mem _ h1, h2⟩
  obtain ⟨o1, o2⟩ := led_orbit ((master_reachable (J := J) hp hm).2 q hq) (hstart q hq).1 (hstart q hq).2 hqa
  exact pol_sample o1 o2 e1 hX haF

/-- non-vacuity of C99: the particle of C94, which circulates in a vertical magnetic field, observed in the plane of its circle: the columns of the file with the vertical
electric field and the horizontal magnetic field are zero -/
example (h : ℝ) (n : Nat) (hh : 0 < h) (hn : n < 2 ^ 31) (hnT : n * h ≤ 1e-9) (rnd : Nat → (Nat → Nat → ℝ) × (Nat → Nat → Nat → ℝ)) (J : Indet) (nodes : Nat) (hN : 0 < nodes) :
    ∃ fs before f, (ringLib h n).program rnd J nodes ringDoc = .ok fs ∧ fs = before ++ [⟨"point.sdds", .point f⟩] ∧
      ∀ i : Nat, i < 3 → ∃ Ex Ez By : ℝ, f.rows[i]? = some [0 + (i : ℝ) * 1, Ex, 0, Ez, 0, By, 0] := by
  obtain ⟨fs, hfs⟩ := ringDoc_runs h n hn hh hnT rnd J nodes hN
  obtain ⟨before, files, e1, e2, e3⟩ := C99_files horizontal (ringLib h n) rnd J nodes hN ringDoc fs _ _ [] hfs (ringDoc_parse h n hn (rnd 0)) (ringDoc_master h n) rfl
    (C99_lattice _ (by
      intro e he
      rw [List.mem_singleton.mp he]
      exact .background 0 ⟨0, 1, 0⟩ rfl rfl rfl)) (by simp) (by
      intro q hq
      rw [ring_all, List.mem_singleton] at hq
      subst hq
      exact ⟨has_horizontal.mpr rfl, along_horizontal.mpr (by show (0 : ℝ) * _ = 0; ring)⟩)
  obtain ⟨d, hd, hb⟩ := e3 0 ⟨.point (PointObs.new ⟨1, 0, 0⟩ 0 1 3), .beam, "point.sdds"⟩ rfl rfl
  have hfl : files = [⟨"point.sdds", d⟩] := by
    have : files.length = 1 := e2
    obtain ⟨x, rfl⟩ := List.length_eq_one_iff.mp this
    simpa using hd
  have hrow := fun (i : Nat) (hi : i < 3) => hb ((0, 0), i) (by simpa [Observer.keys, PointObs.new, FieldTrace.new] using hi)
  obtain ⟨t0, X0, F0, _, hF0, _⟩ := hrow 0 (by norm_num)
  obtain ⟨f, rfl⟩ : ∃ f, d = .point f := by
    cases d with
    | point f => exact ⟨f, rfl⟩
    | _ => exact hF0.elim
  refine ⟨fs, before, f, hfs, by rw [e1, hfl], ?_⟩
  intro i hi
  obtain ⟨t, X, F, f1, f2, f3⟩ := hrow i hi
  simp only [Observer.samplePoint, Except.ok.injEq, Prod.mk.injEq] at f1
  obtain ⟨p1, p2⟩ := f3 (by rw [← f1.2]; exact has_horizontal.mpr rfl)
  have q1 := along_horizontal.mp p1
  have q2 : F.B.x = 0 := by have := congrArg Vec.z p2; simpa [cross, horizontal] using this
  have q3 : F.B.z = 0 := by have := congrArg Vec.x p2; simpa [cross, horizontal] using this
  refine ⟨F.E.x, F.E.z, F.B.y, ?_⟩
  have : f.rows[i]? = some [0 + (i : ℝ) * 1, F.E.x, F.E.y, F.E.z, F.B.x, F.B.y, F.B.z] := f2
  rw [this, q1, q2, q3]

end Lib
end Teufel
