import Verif.Lemmas.Scaling

/-!
# C128: scaling of beams with interactions

A beam of `k c` times the charge and `k` times the mass in `1/c` times the fields, with interactions whose optical mode is `a` times as wide, `a² = k c²`, moves in the same
way, and the fields of the interactions remain `1/c` times the original ones.  With `c = 1` this says that charge and cross section of the mode matter by their ratio only; with
`c = -1, k = a = 1` it is the symmetry between particles and antiparticles.
-/

namespace Teufel
open Vec Input

/-- C128 (simulation): if charges, masses, fields and modes are scaled at the start, then all particles are in the same state after any number of steps, and the fields and
current densities of the interactions are `1/c` times the original ones. -/
theorem C128_coupled {c a k : ℝ} (hc : c ≠ 0) (ha : a ≠ 0) (hk : k * c * c = a * a) {l l' : Lattice} (h : Weakened c (Lattice.field l) (Lattice.field l')) (dt : ℝ) (ps : List Particle)
    (s : List FEL) (n : Nat) (qs : List Particle) (S : List FEL) (hr : Coupled.after l dt ps s n = .ok (qs, S)) :
    ∃ qs' S', Coupled.after l' dt (ps.map (Particle.rescale c k)) (s.map (FEL.rescale c a)) n = .ok (qs', S') ∧
      List.Forall₂ (fun q q' : Particle => q'.getNP = q.getNP ∧ q'.getCharge = k * c * q.getCharge ∧
        ∀ i : Int, q'.TrajTime i = q.TrajTime i ∧ q'.TrajPoint i = q.TrajPoint i ∧ q'.TrajMomentum i = q.TrajMomentum i ∧ q'.TrajAccel i = q.TrajAccel i) qs qs' ∧
      List.Forall₂ (fun f f' : FEL => (∀ t X F, f.Field t X = .ok F → f'.Field t X = .ok (F * c⁻¹)) ∧ f'.currents = f.currents.map (List.map (· * c⁻¹)) ∧
        f'.fields = f.fields.map (List.map (· * c⁻¹))) S S' := by
  refine ⟨_, _, after_rescale hc ha hk h hr, ?_, ?_⟩
  · rw [List.forall₂_map_right_iff, List.forall₂_same]
    intro q _
    refine ⟨rfl, ?_, fun _ => ⟨rfl, rfl, rfl, rfl⟩⟩
    unfold Particle.getCharge Particle.rescale Particle.weigh Particle.recharge
    ring
  · rw [List.forall₂_map_right_iff, List.forall₂_same]
    intro f _
    refine ⟨fun t X F hF => ?_, rfl, rfl⟩
    rw [FEL.field_rescale hc, hF]
    rfl

/-- C128 (radiation): every observer records `k c` times the field of the particle. -/
theorem C128_radiation (c k : ℝ) (o : Observer) (key : Observer.Key) (p : Particle) :
    o.particleSample key (p.rescale c k) = (o.particleSample key p).map (fun F : EMField => F * (k * c)) := by
  unfold Particle.rescale
  rw [sample_weigh, C127_radiation]
  cases o.particleSample key p with
  | error e => rfl
  | ok F =>
    show Except.ok _ = Except.ok _
    congr 1
    ext <;> simp <;> ring

namespace Lib

/-- C128 (files): two input files whose charges, masses, lattices, interactions and modes are related in this way.  Every sample in the file of an observer of the beam is
multiplied by `k c`, fields and current densities in the files of the interactions by `1/c`; the watch point files in HDF5 format are equal. -/
theorem C128_files (L : Lib) (rnd rnd' : Nat → (Nat → Nat → ℝ) × (Nat → Nat → Nat → ℝ)) (J J' : Indet) (nodes nodes' : Nat) (hN : 0 < nodes) (hN' : 0 < nodes') (doc doc' : Xml)
    (p p' : Parsed) (m m' : Beam) (hp : (L.withRandom (rnd 0)).parse doc = .ok p) (hp' : (L.withRandom (rnd' 0)).parse doc' = .ok p') (hm : masterBeam p = .ok m)
    (hm' : masterBeam p' = .ok m') (c a k : ℝ) (hc : c ≠ 0) (ha : a ≠ 0) (hk : k * c * c = a * a)
    (hlat : Weakened c (Lattice.field p.lattice.lattice) (Lattice.field p'.lattice.lattice))
    (hall : m'.all = m.all.map (Particle.rescale c k)) (htr : p'.tracking.timeStep = p.tracking.timeStep ∧ p'.tracking.NOTS = p.tracking.NOTS)
    (hint : p'.tracking.state.interactions = p.tracking.state.interactions.map (Except.map (FEL.rescale c a))) (hobs : p'.observers.observers = p.observers.observers)
    (hwat : p'.tracking.state.watches = p.tracking.state.watches) (fs fs' : List OutFile) (h : L.program rnd J nodes doc = .ok fs) (h' : L.program rnd' J' nodes' doc' = .ok fs') :
    (∀ spec ∈ p.observers.observers, spec.source = .beam → ∃ d d', (⟨spec.file, d⟩ : OutFile) ∈ fs ∧ (⟨spec.file, d'⟩ : OutFile) ∈ fs' ∧
      ∀ key ∈ spec.observer.keys, ∃ X F, Shows spec.observer d key X F ∧ Shows spec.observer d' key X (F * (k * c))) ∧
    (∀ x ∈ p.tracking.state.watches, x.type = .hdf5 → 0 ≤ x.step → x.step ≤ p.tracking.NOTS → ∃ d, (⟨x.filename, .watch d⟩ : OutFile) ∈ fs ∧ (⟨x.filename, .watch d⟩ : OutFile) ∈ fs') ∧
    (∀ (i : Nat) (name : String), i < p.tracking.state.interactions.length → (felFiles doc)[i]? = some (some name) → (felFiles doc')[i]? = some (some name) →
      ∃ F F' : FEL.OutputFile, (⟨name, .fel F⟩ : OutFile) ∈ fs ∧ (⟨name, .fel F'⟩ : OutFile) ∈ fs' ∧ F'.records = F.records ∧ F'.cells = F.cells ∧
        F'.InteractionField = F.InteractionField.map (· * c⁻¹) ∧ F'.CurrentDensity = F.CurrentDensity.map (· * c⁻¹) ∧ F'.w0 = a * F.w0) := by
  obtain ⟨hdt, hn⟩ := htr
  have setup : ∀ s s', p.tracking.state.interactions.mapM id = .ok s → p'.tracking.state.interactions.mapM id = .ok s' → s' = s.map (FEL.rescale c a) := by
    intro s s' h1 h2
    rw [hint, mapM_recharge (g' := id) (ψ := FEL.rescale c a) (fun x f hx => by
      have hx' : x = .ok f := hx
      rw [hx']
      rfl) h1] at h2
    cases h2
    rfl
  have run : ∀ s n ps ps' S S', Coupled.after p.lattice.lattice p.tracking.timeStep m.all s n = .ok (ps, S) →
      Coupled.after p'.lattice.lattice p'.tracking.timeStep m'.all (s.map (FEL.rescale c a)) n = .ok (ps', S') → ps' = ps.map (Particle.rescale c k) ∧ S' = S.map (FEL.rescale c a) := by
    intro s n ps ps' S S' h1 h2
    rw [hdt, hall, after_rescale hc ha hk hlat h1] at h2
    cases h2
    exact ⟨rfl, rfl⟩
  refine ⟨?_, ?_, ?_⟩
  · obtain ⟨p1, m1, s, hp1, hm1, hs, bef, files, hfs, hlen, hw⟩ := C83_coupled_partial L rnd J nodes hN doc fs h
    obtain ⟨p2, m2, s2, hp2, hm2, hs2, bef', files', hfs', hlen', hw'⟩ := C83_coupled_partial L rnd' J' nodes' hN' doc' fs' h'
    obtain rfl : p = p1 := by rw [hp] at hp1; injection hp1
    obtain rfl : p' = p2 := by rw [hp'] at hp2; injection hp2
    obtain rfl : m = m1 := by rw [hm] at hm1; injection hm1
    obtain rfl : m' = m2 := by rw [hm'] at hm2; injection hm2
    obtain rfl := setup s s2 hs hs2
    intro spec hspec hsrc
    obtain ⟨i, hi⟩ := List.getElem?_of_mem hspec
    obtain ⟨d, q1, q2, -⟩ := hw i spec hi
    obtain ⟨d', r1, r2, -⟩ := hw' i spec (by rw [hobs]; exact hi)
    obtain ⟨ps, S, x1, x2⟩ := q2 hsrc
    obtain ⟨ps', S', y1, y2⟩ := r2 hsrc
    rw [hn] at y1
    obtain ⟨rfl, -⟩ := run _ _ _ _ _ _ x1 y1
    refine ⟨d, d', by rw [hfs]; exact List.mem_append_right _ (List.mem_of_getElem? q1), by rw [hfs']; exact List.mem_append_right _ (List.mem_of_getElem? r1), ?_⟩
    intro key hkey
    obtain ⟨t, X, Fs, f1, f2, f3⟩ := x2 key hkey
    obtain ⟨t', X', Gs, g1, g2, g3⟩ := y2 key hkey
    rw [f1] at g1
    cases g1
    rw [mapM_recharge (ψ := fun F : EMField => F * (k * c)) (fun q F hF => by rw [C128_radiation, hF]; rfl) f2] at g2
    cases g2
    rw [sum_mul] at g3
    exact ⟨X, Fs.sum, f3, g3⟩
  · obtain ⟨p1, m1, s, hp1, hm1, hs, hw⟩ := C85_watches_coupled_partial L rnd J nodes hN doc fs h
    obtain ⟨p2, m2, s2, hp2, hm2, hs2, hw'⟩ := C85_watches_coupled_partial L rnd' J' nodes' hN' doc' fs' h'
    obtain rfl : p = p1 := by rw [hp] at hp1; injection hp1
    obtain rfl : p' = p2 := by rw [hp'] at hp2; injection hp2
    obtain rfl : m = m1 := by rw [hm] at hm1; injection hm1
    obtain rfl : m' = m2 := by rw [hm'] at hm2; injection hm2
    obtain rfl := setup s s2 hs hs2
    intro x hx ht h0 h1
    obtain ⟨d, bs, S, d1, d2, d3, -⟩ := hw x hx h0 h1
    obtain ⟨d', bs', S', d1', d2', d3', -⟩ := hw' x (by rw [hwat]; exact hx) h0 (by rw [hn]; exact h1)
    obtain ⟨rfl, -⟩ := run _ _ _ _ _ _ d2 d2'
    have e : d' = d := by
      rw [d3 ht, d3' ht, List.length_map, List.flatMap_map]
      rfl
    subst e
    exact ⟨d', d1, d1'⟩
  · intro i name hi hname hname'
    obtain ⟨p1, m1, s, ps, S, hp1, hm1, hs, hC, hF⟩ := C88_file L rnd J nodes hN doc fs h
    obtain ⟨p2, m2, s2, ps2, S2, hp2, hm2, hs2, hC2, hF2⟩ := C88_file L rnd' J' nodes' hN' doc' fs' h'
    obtain rfl : p = p1 := by rw [hp] at hp1; injection hp1
    obtain rfl : p' = p2 := by rw [hp'] at hp2; injection hp2
    obtain rfl : m = m1 := by rw [hm] at hm1; injection hm1
    obtain rfl : m' = m2 := by rw [hm'] at hm2; injection hm2
    obtain rfl := setup s s2 hs hs2
    rw [hn] at hC2
    obtain ⟨-, rfl⟩ := run _ _ _ _ _ _ hC hC2
    have hl : i < S.length := by
      rw [(after_length hC).2, ← (mapM_forall₂.mp hs).length_eq]
      exact hi
    obtain ⟨F, w1, w2⟩ := hF i S[i] name (List.getElem?_eq_getElem hl) hname
    obtain ⟨F', w3, w4⟩ := hF2 i (S[i].rescale c a) name (by rw [List.getElem?_map, List.getElem?_eq_getElem hl]; rfl) hname'
    rw [FEL.writeOutput_rescale, w1] at w3
    cases w3
    exact ⟨F, _, w2, w4, rfl, rfl, rfl, rfl, rfl⟩

/-! ## Example: twice the charge in half the field, with a mode of twice the width -/

def scaleNode (width : String) : Xml :=
  .node "fel1d" [("N", "2*a")]
    [.node "calc" [("var", "a"), ("eq", "2")] [], .node "position" [] [], .node "prop" [("z", "1")] [], .node "pol" [("x", "1")] [],
     .node "log" [("file", "fel.h5")] [], .node "mode" [("zR", "1"), ("w0", width), ("zwaist", "1")] []]

def scaleDoc (charge field width : String) : Xml :=
  .node "" [] [.node "teufel" []
    [.node "lattice" [] [.node "background" [] [.node "E" [("x", field)] []]],
     .node "beam" [] [.node "particle" [("gamma", "2"), ("charge", charge), ("cmr", charge)] [.node "position" [] [], .node "momentum" [("z", "1")] []]],
     .node "tracking" [("method", "Vay"), ("delta_t", "1"), ("n", "1")] [.node "watch" [("step", "1"), ("file", "early.h5")] [], scaleNode width],
     .node "observer" [] []]]

noncomputable def scaleOne (width : ℝ) : FEL := FEL.setup 4 1 (1 * SpeedOfLight) ⟨0, 0, 0⟩ ⟨0, 0, 1⟩ ⟨1, 0, 0⟩ (cross ⟨0, 0, 1⟩ ⟨1, 0, 0⟩) (some 1) 1 width 1

noncomputable def scaleParsed (charge field width : ℝ) : Parsed :=
  ⟨⟨predefined, [HomogeneousField ⟨field, 0, 0⟩ 0], 1⟩, ⟨predefined, [singleParticle 2 charge charge 0 ⟨0, 0, 0⟩ ⟨0, 0, 1⟩], [], none, 1⟩,
    ⟨1, 1, ⟨felEnv, [⟨1, "early.h5", .hdf5⟩], [.ok (scaleOne width)]⟩⟩, ⟨felEnv, []⟩⟩

theorem scaleDoc_parse (r : (Nat → Nat → ℝ) × (Nat → Nat → Nat → ℝ)) {charge field width : String} {q f w : ℝ} (hq : ∀ env, (exampleLib.withRandom r).eval env charge = some q)
    (hf : ∀ env, (exampleLib.withRandom r).eval env field = some f) (hw : ∀ env, (exampleLib.withRandom r).eval env width = some w) :
    (exampleLib.withRandom r).parse (scaleDoc charge field width) = .ok (scaleParsed q f w) := by
  have hc : ∀ env node, (∀ c ∈ node.children, c.name ≠ "calc") → (exampleLib.withRandom r).parseCalcChildren env node = env := fun env node h => calcChildren_none _ env node h
  have e0 : ∀ env, (exampleLib.withRandom r).eval env "" = env "" := by intro env; simp [withRandom, exampleLib]
  have e1 : ∀ env, (exampleLib.withRandom r).eval env "1" = some 1 := by intro env; simp [withRandom, exampleLib]
  have e2 : ∀ env, (exampleLib.withRandom r).eval env "2" = some 2 := by intro env; simp [withRandom, exampleLib]
  have e3 : (exampleLib.withRandom r).eval felEnv "2*a" = some 4 := by
    simp [withRandom, exampleLib, felEnv]
    norm_num
  have e5 : (exampleLib.withRandom r).nameOk "a" = true := by simp [withRandom, exampleLib]
  have hpe := predefined_empty
  have hfe : felEnv "" = none := by simp [felEnv, hpe]
  have h1 : toInt32 (crint 1) = .ok 1 := by simp [crint, toInt32]
  have h4 : toInt32 (crint 4) = .ok 4 := by simp [crint, toInt32]
  unfold parse scaleDoc
  simp only [Xml.child, Xml.children, Xml.name, List.find?, need, bind, Except.bind, pure, Except.pure, start, beq_self_eq_true]
  rw [hc _ _ (by simp [Xml.children, Xml.name])]
  simp only [parseLattice, parseBeam, parseTracking, parseObservers, Xml.child, Xml.children, Xml.name, List.find?, need, bind, Except.bind, pure, Except.pure]
  have p1 : (exampleLib.withRandom r).latticeStep ⟨predefined, [], 0⟩ (.node "background" [] [.node "E" [("x", field)] []]) = .ok ⟨predefined, [HomogeneousField ⟨f, 0, 0⟩ 0], 1⟩ := by
    simp [latticeStep, latticeElement, Xml.name, parseCalcChildren, Xml.children, Except.map, Lattice.addElement, optVec, Xml.child, vec, num, Xml.value, Xml.attr, Xml.attrs, e0, hf, hpe]
  have p2 : (exampleLib.withRandom r).beamStep ⟨predefined, [], [], none, 0⟩ (.node "particle" [("gamma", "2"), ("charge", charge), ("cmr", charge)] [.node "position" [] [], .node "momentum" [("z", "1")] []])
      = .ok ⟨predefined, [singleParticle 2 q q 0 ⟨0, 0, 0⟩ ⟨0, 0, 1⟩], [], none, 1⟩ := by
    simp [beamStep, particleEntry, Xml.name, parseCalcChildren, Xml.children, Xml.child, need, bind, Except.bind, pure, Except.pure, parseLog, optNum, vec, num, Xml.value, Xml.attr, Xml.attrs, e0, e1, e2, hq, hpe, List.lookup]
  have p5 : ∀ t ws, (exampleLib.withRandom r).trackStep t ⟨predefined, ws, []⟩ (.node "watch" [("step", "1"), ("file", "early.h5")] []) = .ok ⟨predefined, ws ++ [⟨1, "early.h5", .hdf5⟩], []⟩ := by
    intro t ws
    simp [trackStep, watchEntry, Xml.name, need, bind, Except.bind, pure, Except.pure, int, num, Xml.value, Xml.attr, Xml.attrs, e1, h1, List.lookup]
  have p3 : ∀ l ws, (exampleLib.withRandom r).trackStep (.node "tracking" [("method", "Vay"), ("delta_t", "1"), ("n", "1")] l) ⟨predefined, ws, []⟩ (scaleNode width)
      = .ok ⟨felEnv, ws, [.ok (scaleOne w)]⟩ := by
    intro l ws
    have c1 : (exampleLib.withRandom r).parseCalcChildren predefined (scaleNode width) = felEnv := by
      simp [parseCalcChildren, scaleNode, Xml.children, Xml.name, parseCalc, Xml.value, Xml.attr, Xml.attrs, List.lookup, e2, e5, felEnv]
    have c2 : (exampleLib.withRandom r).cellCount felEnv (scaleNode width) = .ok (some 4) := by
      simp [cellCount, scaleNode, Xml.attr, Xml.attrs, List.lookup, int, Xml.value, e3, h4, Except.map]
    have c3 : (exampleLib.withRandom r).felInput felEnv (scaleNode width) (some 4) = ⟨some 4, some ⟨0, 0, 0⟩, some ⟨0, 0, 1⟩, some ⟨1, 0, 0⟩, some (true, none), some (1, w, 1), none⟩ := by
      simp [felInput, scaleNode, Xml.child, Xml.children, Xml.name, vec, num, Xml.value, Xml.attr, Xml.attrs, List.lookup, e0, e1, hw, hfe]
    have c4 : (exampleLib.withRandom r).num felEnv (.node "tracking" [("method", "Vay"), ("delta_t", "1"), ("n", "1")] l) "delta_t" = 1 := by
      simp [num, Xml.value, Xml.attr, Xml.attrs, List.lookup, e1]
    have g1 : normalizeE (⟨0, 0, 1⟩ : Vec) = .ok ⟨0, 0, 1⟩ := FEL.normalizeE_unit (by simp [Vec.norm, Vec.abs2nd])
    have g2 : (⟨1, 0, 0⟩ : Vec) - (⟨0, 0, 1⟩ : Vec) * dot (⟨1, 0, 0⟩ : Vec) ⟨0, 0, 1⟩ = ⟨1, 0, 0⟩ := by ext <;> simp [dot]
    have g3 : normalizeE (⟨1, 0, 0⟩ : Vec) = .ok ⟨1, 0, 0⟩ := FEL.normalizeE_unit (by simp [Vec.norm, Vec.abs2nd])
    have c5 : FEL.ofInput 1 ⟨some 4, some ⟨0, 0, 0⟩, some ⟨0, 0, 1⟩, some ⟨1, 0, 0⟩, some (true, none), some (1, w, 1), none⟩ = .ok (scaleOne w) := by
      unfold FEL.ofInput
      simp only [pure, Except.pure, bind, Except.bind, g1, g2, g3, FEL.logStep]
      rw [if_neg (by omega)]
      rfl
    unfold trackStep
    rw [if_neg (by simp [scaleNode, Xml.name]), if_pos (by simp [scaleNode, Xml.name])]
    simp only [felEntry, c1, c2, c3, c4, c5, keepPoisoned, bind, Except.bind, pure, Except.pure, List.nil_append]
  simp [p1, p2, Xml.value, Xml.attr, Xml.attrs, List.lookup, int, num, e1, h1, scaleParsed]
  simp [pure, Except.pure, bind, Except.bind, p3, p5]

theorem scaleParsed_master {q f w : ℝ} (hq : q ≠ 0) : ∃ m, masterBeam (scaleParsed q f w) = .ok m ∧ m.all = [chargeParticle q] := by
  have e : [singleParticle 2 q q 0 ⟨0, 0, 0⟩ ⟨0, 0, 1⟩].mapM id = .ok [Bunch.empty.Add (chargeParticle q)] := by
    rw [List.mapM_cons, chargeParticle_single hq]
    rfl
  refine ⟨_, by simp only [masterBeam, scaleParsed, e, bind, Except.bind]; rfl, ?_⟩
  simp [Beam.all, Beam.Add, Bunch.Add, Bunch.empty, Beam.empty]

theorem scaleDoc_runs (rnd : Nat → (Nat → Nat → ℝ) × (Nat → Nat → Nat → ℝ)) (J : Indet) (nodes : Nat) (hN : 0 < nodes) (doc : Xml) {q f w : ℝ} (hq : q ≠ 0) (hw : w ≠ 0)
    (hp : (exampleLib.withRandom (rnd 0)).parse doc = .ok (scaleParsed q f w)) : ∃ fs, exampleLib.program rnd J nodes doc = .ok fs := by
  have he : ElementaryCharge ≠ 0 := by norm_num [ElementaryCharge]
  obtain ⟨m, hm, hall⟩ := scaleParsed_master (f := f) (w := w) hq
  refine C86_complete exampleLib rnd J nodes hN doc _ m hp hm (by simp [scaleParsed]) (by simp [scaleParsed]) (fun t X => ⟨_, rfl⟩) ?_ (by simp [scaleParsed]) (by simp [scaleParsed])
    [scaleOne w] rfl ?_ (by simp [scaleParsed])
  · intro x hx
    rw [hall, List.mem_singleton] at hx
    subst hx
    exact ⟨div_ne_zero (div_ne_zero hq he) hq, rfl⟩
  · intro g hg
    rw [List.mem_singleton] at hg
    subst hg
    refine ⟨by simp [scaleOne, FEL.setup], by simp [scaleOne, FEL.setup, scaleParsed], by simp [scaleOne, FEL.setup], hw, rfl, ⟨1, rfl, by norm_num⟩, ?_⟩
    intro x hx
    rw [hall, List.mem_singleton] at hx
    subst hx
    have : FEL.cellsBehindHead (scaleOne w) (chargeParticle q) = 0 := by
      simp [FEL.cellsBehindHead, scaleOne, FEL.setup, chargeParticle, Particle.initTrajectory, dot]
    rw [this]
    refine ⟨le_refl _, ?_⟩
    show (0 : ℝ) + 2 * ((1 : Nat) : ℝ) ≤ ((4 : Nat) : ℝ) - 1
    norm_num

/-- non-vacuity of C128: a particle in a field of 2 V/m with an interaction, and one with twice the charge in a field of 1 V/m with an interaction of twice the width -/
example (rnd rnd' : Nat → (Nat → Nat → ℝ) × (Nat → Nat → Nat → ℝ)) (J J' : Indet) :
    ∃ fs fs' d, ∃ F F' : FEL.OutputFile, exampleLib.program rnd J 5 (scaleDoc "1" "2" "1") = .ok fs ∧ exampleLib.program rnd' J' 3 (scaleDoc "2" "1" "2") = .ok fs' ∧
      (⟨"early.h5", .watch d⟩ : OutFile) ∈ fs ∧ (⟨"early.h5", .watch d⟩ : OutFile) ∈ fs' ∧ (⟨"fel.h5", .fel F⟩ : OutFile) ∈ fs ∧ (⟨"fel.h5", .fel F'⟩ : OutFile) ∈ fs' ∧
      F'.InteractionField = F.InteractionField.map (· * (2 : ℝ)⁻¹) ∧ F'.CurrentDensity = F.CurrentDensity.map (· * (2 : ℝ)⁻¹) := by
  have v1 : ∀ r env, (exampleLib.withRandom r).eval env "1" = some 1 := by intro r env; simp [withRandom, exampleLib]
  have v2 : ∀ r env, (exampleLib.withRandom r).eval env "2" = some 2 := by intro r env; simp [withRandom, exampleLib]
  have hp := fun r => scaleDoc_parse r (v1 r) (v2 r) (v1 r)
  have hp' := fun r => scaleDoc_parse r (v2 r) (v1 r) (v2 r)
  obtain ⟨m, hm, hall⟩ := scaleParsed_master (q := 1) (f := 2) (w := 1) one_ne_zero
  obtain ⟨m', hm', hall'⟩ := scaleParsed_master (q := 2) (f := 1) (w := 2) two_ne_zero
  obtain ⟨fs, h⟩ := scaleDoc_runs rnd J 5 (by norm_num) _ one_ne_zero one_ne_zero (hp _)
  obtain ⟨fs', h'⟩ := scaleDoc_runs rnd' J' 3 (by norm_num) _ two_ne_zero two_ne_zero (hp' _)
  have hl : Weakened 2 (Lattice.field (scaleParsed 1 2 1).lattice.lattice) (Lattice.field (scaleParsed 2 1 2).lattice.lattice) := by
    intro t X F hF
    simp only [scaleParsed, Lattice.field, HomogeneousField, List.foldlM_cons, List.foldlM_nil, bind, Except.bind, pure, Except.pure, Except.map, Except.ok.injEq] at hF ⊢
    subst hF
    ext <;> simp
  have hpart : chargeParticle 2 = (chargeParticle 1).rescale 2 1 := by
    unfold Particle.rescale
    rw [chargeParticle_recharge two_ne_zero one_ne_zero, mul_one]
    simp [Particle.weigh]
  have hfel : scaleOne 2 = (scaleOne 1).rescale 2 2 := by
    simp [scaleOne, FEL.setup, FEL.rescale]
  obtain ⟨-, g2, g3⟩ := C128_files exampleLib rnd rnd' J J' 5 3 (by norm_num) (by norm_num) _ _ _ _ m m' (hp _) (hp' _) hm hm' 2 2 1 two_ne_zero two_ne_zero (by norm_num) hl
    (by rw [hall, hall', List.map_cons, List.map_nil, hpart]) ⟨rfl, rfl⟩ (by simp only [scaleParsed, List.map_cons, List.map_nil, Except.map, hfel]) rfl rfl fs fs' h h'
  obtain ⟨d, w1, w2⟩ := g2 ⟨1, "early.h5", .hdf5⟩ (by simp [scaleParsed]) rfl (by norm_num) (by simp [scaleParsed])
  obtain ⟨F, F', f1, f2, -, -, f3, f4, -⟩ := g3 0 "fel.h5" (by simp [scaleParsed])
    (by simp [felFiles, scaleDoc, scaleNode, Xml.child, Xml.children, Xml.name, Xml.attr, Xml.attrs, List.lookup])
    (by simp [felFiles, scaleDoc, scaleNode, Xml.child, Xml.children, Xml.name, Xml.attr, Xml.attrs, List.lookup])
  exact ⟨fs, fs', d, F, F', h, h', w1, w2, f1, f2, f3, f4⟩

end Lib
end Teufel
