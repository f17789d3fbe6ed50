import Verif.Lemmas.Recharge
import Verif.Props.Order

/-!
# C127: what matters for the motion is the product of charge and field

Particles of `c` times the charge and the same mass in `1/c` times the field move in the same way and radiate `c` times the field.  With `c = -1` these are the antiparticles
in the reversed field.
-/

namespace Teufel
open Vec Input

/-- C127 (motion): a particle of `c` times the charge in `1/c` times the field passes through the same points with the same momenta and accelerations. -/
theorem C127_motion {c : ℝ} (hc : c ≠ 0) {f g : FieldFn} (h : Weakened c f g) (dt : ℝ) (p a : Particle) (n : Nat) (ha : trackAlone dt f p n = .ok a) :
    ∃ b, trackAlone dt g (p.recharge c) n = .ok b ∧ b.getNP = a.getNP ∧
      ∀ i : Int, b.TrajTime i = a.TrajTime i ∧ b.TrajPoint i = a.TrajPoint i ∧ b.TrajMomentum i = a.TrajMomentum i ∧ b.TrajAccel i = a.TrajAccel i :=
  ⟨a.recharge c, Particle.alone_recharge hc h dt p a n ha, rfl, fun _ => ⟨rfl, rfl, rfl, rfl⟩⟩

/-- C127 (radiation): every observer records `c` times the field of it. -/
theorem C127_radiation (c : ℝ) (o : Observer) (key : Observer.Key) (p : Particle) :
    o.particleSample key (p.recharge c) = (o.particleSample key p).map (fun F : EMField => F * c) := by
  rw [Particle.sample_mass, sample_weigh]

theorem sum_mul (c : ℝ) (l : List EMField) : (l.map (fun F : EMField => F * c)).sum = l.sum * c := by
  induction l with
  | nil =>
    show (0 : EMField) = (0 : EMField) * c
    ext <;> simp
  | cons F l ih => rw [List.map_cons, List.sum_cons, List.sum_cons, ih, Particle.add_weigh]

theorem mapM_recharge {α β γ δ : Type} {g : α → Except Err β} {g' : γ → Except Err δ} {φ : α → γ} {ψ : β → δ} (h : ∀ a b, g a = .ok b → g' (φ a) = .ok (ψ b)) {l : List α} {r : List β}
    (hr : l.mapM g = .ok r) : (l.map φ).mapM g' = .ok (r.map ψ) := by
  induction l generalizing r with
  | nil => cases hr; rfl
  | cons a l ih =>
    rw [List.mapM_cons] at hr
    cases ha : g a with
    | error e => rw [ha] at hr; cases hr
    | ok b =>
    cases hl : l.mapM g with
    | error e => rw [ha, hl] at hr; cases hr
    | ok bs =>
    rw [ha, hl] at hr
    cases hr
    rw [List.map_cons, List.mapM_cons, h a b ha, ih hl]
    rfl

namespace Lib

/-- C127 (files): two input files without interactions, the second one with `c` times the charges, the same masses and `1/c` times the field of the lattice.  Every sample in
the file of an observer of the beam is multiplied by `c`; every watch point file holds the same states. -/
theorem C127_files (L : Lib) (rnd rnd' : Nat → (Nat → Nat → ℝ) × (Nat → Nat → Nat → ℝ)) (J J' : Indet) (nodes nodes' : Nat) (hN : 0 < nodes) (hN' : 0 < nodes') (doc doc' : Xml)
    (p p' : Parsed) (m m' : Beam) (hp : (L.withRandom (rnd 0)).parse doc = .ok p) (hp' : (L.withRandom (rnd' 0)).parse doc' = .ok p') (hm : masterBeam p = .ok m)
    (hm' : masterBeam p' = .ok m') (c : ℝ) (hc : c ≠ 0) (hlat : Weakened c (Lattice.field p.lattice.lattice) (Lattice.field p'.lattice.lattice))
    (hall : m'.all = m.all.map (Particle.recharge c)) (htr : p'.tracking.timeStep = p.tracking.timeStep ∧ p'.tracking.NOTS = p.tracking.NOTS)
    (hint : p.tracking.state.interactions = [] ∧ p'.tracking.state.interactions = []) (hobs : p'.observers.observers = p.observers.observers)
    (hwat : p'.tracking.state.watches = p.tracking.state.watches) (fs fs' : List OutFile) (h : L.program rnd J nodes doc = .ok fs) (h' : L.program rnd' J' nodes' doc' = .ok fs') :
    (∀ spec ∈ p.observers.observers, spec.source = .beam → ∃ d d', (⟨spec.file, d⟩ : OutFile) ∈ fs ∧ (⟨spec.file, d'⟩ : OutFile) ∈ fs' ∧
      ∀ k ∈ spec.observer.keys, ∃ X F, Shows spec.observer d k X F ∧ Shows spec.observer d' k X (F * c)) ∧
    (∀ x ∈ p.tracking.state.watches, 0 ≤ x.step → x.step ≤ p.tracking.NOTS → ∃ d d', (⟨x.filename, .watch d⟩ : OutFile) ∈ fs ∧ (⟨x.filename, .watch d'⟩ : OutFile) ∈ fs' ∧
      (x.type = .hdf5 → d' = d) ∧ (x.type = .sdds → ∃ n q rows, d = .sdds n q rows ∧ d' = .sdds n (c * q) rows)) := by
  obtain ⟨hdt, hn⟩ := htr
  have e0 : ([] : List (Except Err FEL)).mapM id = (.ok [] : Except Err (List FEL)) := rfl
  have run : ∀ k ps ps' S S', Coupled.after p.lattice.lattice p.tracking.timeStep m.all [] k = .ok (ps, S) →
      Coupled.after p'.lattice.lattice p'.tracking.timeStep m'.all [] k = .ok (ps', S') → ps' = ps.map (Particle.recharge c) := by
    intro k ps ps' S S' a b
    have a' := ((coupled_alone _ _ _ _ _ _).mp a).1
    have b' := ((coupled_alone _ _ _ _ _ _).mp b).1
    rw [hdt, hall, mapM_recharge (fun q r hqr => Particle.alone_recharge hc hlat _ q r k hqr) a'] at b'
    cases b'
    rfl
  constructor
  · obtain ⟨p1, m1, s, hp1, hm1, hs, bef, files, hfs, hlen, hw⟩ := C83_coupled_partial L rnd J nodes hN doc fs h
    obtain ⟨p2, m2, s2, hp2, hm2, hs2, bef', files', hfs', hlen', hw'⟩ := C83_coupled_partial L rnd' J' nodes' hN' doc' fs' h'
    obtain rfl : p = p1 := by rw [hp] at hp1; injection hp1
    obtain rfl : p' = p2 := by rw [hp'] at hp2; injection hp2
    obtain rfl : m = m1 := by rw [hm] at hm1; injection hm1
    obtain rfl : m' = m2 := by rw [hm'] at hm2; injection hm2
    rw [hint.1, e0] at hs
    rw [hint.2, e0] at hs2
    cases hs
    cases hs2
    intro spec hspec hsrc
    obtain ⟨i, hi⟩ := List.getElem?_of_mem hspec
    obtain ⟨d, q1, q2, -⟩ := hw i spec hi
    obtain ⟨d', r1, r2, -⟩ := hw' i spec (by rw [hobs]; exact hi)
    obtain ⟨ps, S, x1, x2⟩ := q2 hsrc
    obtain ⟨ps', S', y1, y2⟩ := r2 hsrc
    rw [hn] at y1
    obtain rfl := run _ _ _ _ _ x1 y1
    refine ⟨d, d', by rw [hfs]; exact List.mem_append_right _ (List.mem_of_getElem? q1), by rw [hfs']; exact List.mem_append_right _ (List.mem_of_getElem? r1), ?_⟩
    intro k hk
    obtain ⟨t, X, Fs, f1, f2, f3⟩ := x2 k hk
    obtain ⟨t', X', Gs, g1, g2, g3⟩ := y2 k hk
    rw [f1] at g1
    cases g1
    rw [mapM_recharge (ψ := fun F : EMField => F * c) (fun q F hF => by rw [C127_radiation, hF]; rfl) f2] at g2
    cases g2
    rw [sum_mul] at g3
    exact ⟨X, Fs.sum, f3, g3⟩
  · obtain ⟨p1, m1, s, hp1, hm1, hs, hw⟩ := C85_watches_coupled_partial L rnd J nodes hN doc fs h
    obtain ⟨p2, m2, s2, hp2, hm2, hs2, hw'⟩ := C85_watches_coupled_partial L rnd' J' nodes' hN' doc' fs' h'
    obtain rfl : p = p1 := by rw [hp] at hp1; injection hp1
    obtain rfl : p' = p2 := by rw [hp'] at hp2; injection hp2
    obtain rfl : m = m1 := by rw [hm] at hm1; injection hm1
    obtain rfl : m' = m2 := by rw [hm'] at hm2; injection hm2
    rw [hint.1, e0] at hs
    rw [hint.2, e0] at hs2
    cases hs
    cases hs2
    intro x hx h0 h1
    obtain ⟨d, bs, S, d1, d2, d3, d4⟩ := hw x hx h0 h1
    obtain ⟨d', bs', S', d1', d2', d3', d4'⟩ := hw' x (by rw [hwat]; exact hx) h0 (by rw [hn]; exact h1)
    obtain rfl := run _ _ _ _ _ d2 d2'
    refine ⟨d, d', d1, d1', ?_, ?_⟩
    · intro ht
      rw [d3 ht, d3' ht, List.length_map, List.flatMap_map]
      rfl
    · intro ht
      obtain ⟨rows, r1, r2⟩ := d4 ht
      obtain ⟨rows', r1', r2'⟩ := d4' ht
      refine ⟨_, _, rows, r1, ?_⟩
      rw [r1', hall, List.length_map]
      have hq : ((m.all.map (Particle.recharge c)).map (fun q => q.Charge * ElementaryCharge)).sum = c * (m.all.map (fun q => q.Charge * ElementaryCharge)).sum := by
        rw [List.map_map, ← List.sum_map_mul_left]
        congr 1
        refine List.map_congr_left (fun q _ => ?_)
        show c * q.Charge * ElementaryCharge = c * (q.Charge * ElementaryCharge)
        ring
      have hrow : rows' = rows := by
        rw [List.forall₂_map_left_iff] at r2'
        clear * - r2 r2'
        induction r2 generalizing rows' with
        | nil => cases r2'; rfl
        | cons hx _ ih =>
          cases r2' with
          | cons hy r2' => rw [row_unique hx hy, ih _ r2']
      rw [hq, hrow]
      congr 1
      ring

/-! ## Example: twice the charge in half the field -/

def chargeDoc (charge field : String) : Xml :=
  .node "" [] [.node "teufel" []
    [.node "lattice" [] [.node "background" [] [.node "E" [("x", field)] []]],
     .node "beam" [] [.node "particle" [("gamma", "2"), ("charge", charge), ("cmr", charge)] [.node "position" [] [], .node "momentum" [("z", "1")] []]],
     .node "tracking" [("method", "Vay"), ("delta_t", "_h"), ("n", "2")] [.node "watch-sdds" [("step", "1"), ("file", "early.sdds")] []],
     .node "observer" [] [.node "point" [("file", "point.sdds"), ("source", "beam")] [.node "position" [("x", "1")] [], .node "time" [("dt", "1"), ("n", "3")] []]]]]

noncomputable def chargeParsed (charge field : ℝ) : Parsed :=
  ⟨⟨predefined, [HomogeneousField ⟨field, 0, 0⟩ 0], 1⟩, ⟨predefined, [singleParticle 2 charge charge 0 ⟨0, 0, 0⟩ ⟨0, 0, 1⟩], [], none, 1⟩,
    ⟨6.62607015e-34, 2, ⟨predefined, [⟨1, "early.sdds", .sdds⟩], []⟩⟩, ⟨predefined, [⟨.point (PointObs.new ⟨1, 0, 0⟩ 0 1 3), .beam, "point.sdds"⟩]⟩⟩

theorem chargeDoc_parse (r : (Nat → Nat → ℝ) × (Nat → Nat → Nat → ℝ)) :
    (exampleLib.withRandom r).parse (chargeDoc "1" "2") = .ok (chargeParsed 1 2) ∧ (exampleLib.withRandom r).parse (chargeDoc "2" "1") = .ok (chargeParsed 2 1) := by
  have hc : ∀ env node, (∀ c ∈ node.children, c.name ≠ "calc") → (exampleLib.withRandom r).parseCalcChildren env node = env := fun env node h => calcChildren_none _ env node h
  have e0 : ∀ env, (exampleLib.withRandom r).eval env "" = env "" := by intro env; simp [withRandom, exampleLib]
  have e1 : ∀ env, (exampleLib.withRandom r).eval env "1" = some 1 := by intro env; simp [withRandom, exampleLib]
  have e2 : ∀ env, (exampleLib.withRandom r).eval env "2" = some 2 := by intro env; simp [withRandom, exampleLib]
  have e3 : (exampleLib.withRandom r).asInt "3" = 3 := by simp [withRandom, exampleLib]
  have e4 : (exampleLib.withRandom r).eval predefined "_h" = some 6.62607015e-34 := by simp [withRandom, exampleLib, predefined]
  have hpe := predefined_empty
  have h1 : toInt32 (crint 1) = .ok 1 := by simp [crint, toInt32]
  have h2 : toInt32 (crint 2) = .ok 2 := by simp [crint, toInt32]
  have p1 : ∀ s v, (∀ env, (exampleLib.withRandom r).eval env s = some v) → (exampleLib.withRandom r).latticeStep ⟨predefined, [], 0⟩ (.node "background" [] [.node "E" [("x", s)] []])
      = .ok ⟨predefined, [HomogeneousField ⟨v, 0, 0⟩ 0], 1⟩ := by
    intro s v hs
    simp [latticeStep, latticeElement, Xml.name, parseCalcChildren, Xml.children, Except.map, Lattice.addElement, optVec, Xml.child, vec, num, Xml.value, Xml.attr, Xml.attrs, e0, hs, hpe]
  have p2 : ∀ s v, (∀ env, (exampleLib.withRandom r).eval env s = some v) → (exampleLib.withRandom r).beamStep ⟨predefined, [], [], none, 0⟩
      (.node "particle" [("gamma", "2"), ("charge", s), ("cmr", s)] [.node "position" [] [], .node "momentum" [("z", "1")] []])
      = .ok ⟨predefined, [singleParticle 2 v v 0 ⟨0, 0, 0⟩ ⟨0, 0, 1⟩], [], none, 1⟩ := by
    intro s v hs
    simp [beamStep, particleEntry, Xml.name, parseCalcChildren, Xml.children, Xml.child, need, bind, Except.bind, pure, Except.pure, parseLog, optNum, vec, num, Xml.value, Xml.attr, Xml.attrs, e0, e1, e2, hs, hpe, List.lookup]
  have p5 : ∀ t ws, (exampleLib.withRandom r).trackStep t ⟨predefined, ws, []⟩ (.node "watch-sdds" [("step", "1"), ("file", "early.sdds")] []) = .ok ⟨predefined, ws ++ [⟨1, "early.sdds", .sdds⟩], []⟩ := by
    intro t ws
    simp [trackStep, watchEntry, Xml.name, need, bind, Except.bind, pure, Except.pure, int, num, Xml.value, Xml.attr, Xml.attrs, e1, h1, List.lookup]
  have p4 : (exampleLib.withRandom r).observerStep ⟨predefined, []⟩ (.node "point" [("file", "point.sdds"), ("source", "beam")] [.node "position" [("x", "1")] [], .node "time" [("dt", "1"), ("n", "3")] []])
      = .ok ⟨predefined, [⟨.point (PointObs.new ⟨1, 0, 0⟩ 0 1 3), .beam, "point.sdds"⟩]⟩ := by
    have hsrc : source (.node "point" [("file", "point.sdds"), ("source", "beam")] [.node "position" [("x", "1")] [], .node "time" [("dt", "1"), ("n", "3")] []]) = .ok .beam := by
      simp [source, Xml.attr, Xml.attrs, List.lookup]
    simp [observerStep, observerEntry, pointEntry, Xml.name, parseCalcChildren, Xml.children, Xml.child, need, bind, Except.bind, pure, Except.pure, hsrc, points, Except.map, vec, num, Xml.value, Xml.attr, Xml.attrs, e0, e1, e3, hpe, List.lookup]
  have l1 := p1 "1" 1 e1
  have l2 := p1 "2" 2 e2
  have b1 := p2 "1" 1 e1
  have b2 := p2 "2" 2 e2
  constructor <;>
  · unfold parse chargeDoc
    simp only [Xml.child, Xml.children, Xml.name, List.find?, need, bind, Except.bind, pure, Except.pure, start, beq_self_eq_true]
    rw [hc _ _ (by simp [Xml.children, Xml.name])]
    simp only [parseLattice, parseBeam, parseTracking, parseObservers, Xml.child, Xml.children, Xml.name, List.find?, need, bind, Except.bind, pure, Except.pure]
    simp [l1, l2, b1, b2, Xml.value, Xml.attr, Xml.attrs, List.lookup, int, num, e1, e2, e4, h2, chargeParsed]
    simp [pure, Except.pure, bind, Except.bind, l1, l2, b1, b2, p4, p5]
    try rw [e4]
    try rfl

/-- a particle of charge `q` with the charge-to-mass ratio `q`, so that its mass does not depend on `q` -/
noncomputable def chargeParticle (q : ℝ) : Particle :=
  (Particle.new (q / ElementaryCharge) (q / ElementaryCharge / q)).initTrajectory 0 ⟨0, 0, 0⟩ (Vec.normalize ⟨0, 0, 1⟩ * Real.sqrt (2 * 2 - 1)) 0

theorem chargeParticle_single {q : ℝ} (hq : q ≠ 0) : singleParticle 2 q q 0 ⟨0, 0, 0⟩ ⟨0, 0, 1⟩ = .ok (Bunch.empty.Add (chargeParticle q)) := by
  have hn : normalizeE ⟨0, 0, 1⟩ = .ok (Vec.normalize ⟨0, 0, 1⟩) := by
    unfold normalizeE
    rw [if_neg]
    intro h
    have := congrArg Vec.z h
    norm_num at this
  have hc : chargeMass (q / ElementaryCharge) q = .ok (q / ElementaryCharge, q / ElementaryCharge / q) := by
    unfold chargeMass
    rw [if_neg (by rw [not_or]; exact ⟨hq, div_ne_zero hq (by norm_num [ElementaryCharge])⟩)]
  have hb : betaGamma 2 = .ok (Real.sqrt (2 * 2 - 1)) := by
    unfold betaGamma
    rw [if_neg (by norm_num)]
  unfold singleParticle
  rw [hn, hc, hb]
  rfl

theorem chargeParticle_recharge {c q : ℝ} (hc : c ≠ 0) (hq : q ≠ 0) : (chargeParticle q).recharge c = chargeParticle (c * q) := by
  unfold chargeParticle Particle.recharge Particle.initTrajectory Particle.new
  have he : ElementaryCharge ≠ 0 := by norm_num [ElementaryCharge]
  have e1 : c * q / ElementaryCharge = c * (q / ElementaryCharge) := mul_div_assoc _ _ _
  have e2 : c * (q / ElementaryCharge) / (c * q) = q / ElementaryCharge / q := mul_div_mul_left _ _ hc
  have e3 : (0 : Vec) * c⁻¹ = 0 := by ext <;> simp
  simp only [e1, e2, e3, mul_zero]
  congr 1
  ring

theorem chargeParsed_master {q f : ℝ} (hq : q ≠ 0) : ∃ m, masterBeam (chargeParsed q f) = .ok m ∧ m.all = [chargeParticle q] := by
  have e : [singleParticle 2 q q 0 ⟨0, 0, 0⟩ ⟨0, 0, 1⟩].mapM id = .ok [Bunch.empty.Add (chargeParticle q)] := by
    rw [List.mapM_cons, chargeParticle_single hq]
    rfl
  refine ⟨_, by simp only [masterBeam, chargeParsed, e, bind, Except.bind]; rfl, ?_⟩
  simp [Beam.all, Beam.Add, Bunch.Add, Bunch.empty, Beam.empty]

theorem chargeDoc_runs (rnd : Nat → (Nat → Nat → ℝ) × (Nat → Nat → Nat → ℝ)) (J : Indet) (nodes : Nat) (hN : 0 < nodes) (doc : Xml) {c f : ℝ} (hc : c ≠ 0)
    (hp : (exampleLib.withRandom (rnd 0)).parse doc = .ok (chargeParsed c f)) : ∃ fs, exampleLib.program rnd J nodes doc = .ok fs := by
  have he : ElementaryCharge ≠ 0 := by norm_num [ElementaryCharge]
  obtain ⟨m, hm, hall⟩ := chargeParsed_master (f := f) hc
  refine C86_without_interactions exampleLib rnd J nodes hN doc _ m hp hm (by simp [chargeParsed]) (fun t X => ⟨_, rfl⟩) ?_ (by simp [chargeParsed]) (by simp [chargeParsed]) ?_ rfl
  · intro q hq
    rw [hall, List.mem_singleton] at hq
    subst hq
    exact div_ne_zero (div_ne_zero hc he) hc
  · intro spec hspec
    simp only [chargeParsed, List.mem_singleton] at hspec
    subst hspec
    refine ⟨⟨by simp [Observer.keys, PointObs.new, FieldTrace.new], by intro s hs; cases hs⟩, fun _ => ⟨by norm_num [chargeParsed], by show (0 : ℝ) < 1; norm_num, ?_⟩⟩
    intro q hq a ha
    rw [hall, List.mem_singleton] at hq
    subst hq
    have hreach : (chargeParticle c).Reachable := ⟨_, [.init 0 ⟨0, 0, 0⟩ _ 0], Or.inl ⟨_, _, rfl⟩, rfl⟩
    refine clear_far (by intro s hs; cases hs) hreach (by norm_num [chargeParsed]) (alone_moved ha) ?_
    intro key _ t X hX
    have hX' : X = ⟨1, 0, 0⟩ := by
      injection hX with hX
      exact (congrArg Prod.snd hX).symm
    have h0 : (chargeParticle c).XCur = ⟨0, 0, 0⟩ := rfl
    have hn : ∀ a b, (chargeParsed a b).tracking.NOTS.toNat = 2 := fun _ _ => rfl
    rw [hX', h0, hn]
    have : Vec.norm ((⟨1, 0, 0⟩ : Vec) - ⟨0, 0, 0⟩) = 1 := by simp [Vec.norm]
    rw [this]
    norm_num [chargeParsed, SpeedOfLight]

/-- non-vacuity of C127: a particle in a field of 2 V/m, and one with twice the charge in a field of 1 V/m -/
example (rnd rnd' : Nat → (Nat → Nat → ℝ) × (Nat → Nat → Nat → ℝ)) (J J' : Indet) :
    ∃ fs fs' d d', exampleLib.program rnd J 5 (chargeDoc "1" "2") = .ok fs ∧ exampleLib.program rnd' J' 3 (chargeDoc "2" "1") = .ok fs' ∧
      (⟨"point.sdds", d⟩ : OutFile) ∈ fs ∧ (⟨"point.sdds", d'⟩ : OutFile) ∈ fs' ∧
      (∀ k < 3, ∃ X F, Shows (.point (PointObs.new ⟨1, 0, 0⟩ 0 1 3)) d ((0, 0), k) X F ∧ Shows (.point (PointObs.new ⟨1, 0, 0⟩ 0 1 3)) d' ((0, 0), k) X (F * (2 : ℝ))) ∧
      ∃ n q rows, (⟨"early.sdds", .watch (.sdds n q rows)⟩ : OutFile) ∈ fs ∧ (⟨"early.sdds", .watch (.sdds n (2 * q) rows)⟩ : OutFile) ∈ fs' := by
  obtain ⟨m, hm, hall⟩ := chargeParsed_master (q := 1) (f := 2) one_ne_zero
  obtain ⟨m', hm', hall'⟩ := chargeParsed_master (q := 2) (f := 1) two_ne_zero
  obtain ⟨fs, h⟩ := chargeDoc_runs rnd J 5 (by norm_num) _ one_ne_zero (chargeDoc_parse _).1
  obtain ⟨fs', h'⟩ := chargeDoc_runs rnd' J' 3 (by norm_num) _ two_ne_zero (chargeDoc_parse _).2
  have hl : Weakened 2 (Lattice.field (chargeParsed 1 2).lattice.lattice) (Lattice.field (chargeParsed 2 1).lattice.lattice) := by
    intro t X F hF
    simp only [chargeParsed, Lattice.field, HomogeneousField, List.foldlM_cons, List.foldlM_nil, bind, Except.bind, pure, Except.pure, Except.map, Except.ok.injEq] at hF ⊢
    subst hF
    ext <;> simp
  obtain ⟨g1, g2⟩ := C127_files exampleLib rnd rnd' J J' 5 3 (by norm_num) (by norm_num) _ _ _ _ m m' (chargeDoc_parse _).1 (chargeDoc_parse _).2 hm hm' 2 two_ne_zero hl
    (by rw [hall, hall', List.map_cons, List.map_nil, chargeParticle_recharge two_ne_zero one_ne_zero, mul_one]) ⟨rfl, rfl⟩ ⟨rfl, rfl⟩ rfl rfl fs fs' h h'
  obtain ⟨d, d', f1, f2, f3⟩ := g1 ⟨.point (PointObs.new ⟨1, 0, 0⟩ 0 1 3), .beam, "point.sdds"⟩ (by simp [chargeParsed]) rfl
  obtain ⟨w, w', v1, v2, -, v3⟩ := g2 ⟨1, "early.sdds", .sdds⟩ (by simp [chargeParsed]) (by norm_num) (by simp [chargeParsed])
  obtain ⟨n, q, rows, u1, u2⟩ := v3 rfl
  subst u1 u2
  refine ⟨fs, fs', d, d', h, h', f1, f2, ?_, n, q, rows, v1, v2⟩
  intro k hk
  exact f3 ((0, 0), k) (by simp [Observer.keys, PointObs.new, FieldTrace.new, hk])

end Lib
end Teufel
