import Verif.Props.ProgramComplete
import Verif.Lemmas.Shares

/-!
# C104: macro-particles may be divided
-/

namespace Teufel
open Vec Input

/-- **C104 (motion).** Only the ratio of charge and mass matters for the motion: a macro-particle with `k` times the charge and mass
follows the same trajectory, and its tracking fails exactly if that of the original fails. -/
theorem C104_motion {k : ℝ} (hk : k ≠ 0) (dt : ℝ) (f : FieldFn) (p : Particle) (n : Nat) :
    trackAlone dt f (p.weigh k) n = (trackAlone dt f p n).map (Particle.weigh k) := by
  unfold trackAlone
  have e := Particle.init_weigh k hk (p.initTrajectory p.tCur p.XCur p.PCur p.ACur) dt f
  show (dropState (((p.initTrajectory p.tCur p.XCur p.PCur p.ACur).weigh k).InitVay dt f)).bind _ = Except.map _ (Except.bind _ _)
  rw [e, Particle.drop_weigh]
  cases dropState ((p.initTrajectory p.tCur p.XCur p.PCur p.ACur).InitVay dt f) with
  | error e => rfl
  | ok a =>
    show dropState ((a.weigh k).steps _) = (dropState (a.steps _)).map _
    rw [Particle.steps_weigh, Particle.drop_weigh]

/-- non-vacuity: the trajectory of a particle of twice the charge and mass in a constant field exists -/
example : ∃ a, trackAlone 1 (fun _ _ => .ok ⟨⟨1, 0, 0⟩, 0⟩) (((Particle.new 1 1).initTrajectory 0 0 0 0).weigh 2) 3 = .ok a :=
  Lib.alone_exists (fun _ _ => ⟨_, rfl⟩) 1 _ (by norm_num [Particle.weigh, Particle.initTrajectory, Particle.new]) 3

/-- **C104 (radiation).** The field which any observer records of a macro-particle is proportional to its charge. -/
theorem C104_radiation (k : ℝ) (o : Observer) (key : Observer.Key) (p : Particle) :
    o.particleSample key (p.weigh k) = (o.particleSample key p).map (fun F : EMField => F * k) := sample_weigh k o key p

/-- **C104 (observers).** Dividing the macro-particles of a list does not change the field recorded by any observer. -/
theorem C104_observed {ps qs : List Particle} (h : Divided ps qs) (o : Observer) (key : Observer.Key) {Fs : List EMField} (hF : ps.mapM (o.particleSample key) = .ok Fs) :
    ∃ Gs, qs.mapM (o.particleSample key) = .ok Gs ∧ Gs.sum = Fs.sum := sum_divided h hF

theorem mapM_imp {α β : Type} {g g' : α → Except Err β} (h : ∀ a b, g a = .ok b → g' a = .ok b) {l : List α} {l' : List β} (hl : l.mapM g = .ok l') : l.mapM g' = .ok l' := by
  rw [mapM_forall₂] at hl ⊢
  exact hl.imp (fun a b => h a b)

/-- **C104 (simulation).** If the macro-particles are divided at the start, the simulation of particles and interactions proceeds in the same way: after any
number of steps the interactions are in the same state, and the particles are those of the original simulation, divided. -/
theorem C104_coupled (ext : Lattice) (dt : ℝ) {ps qs : List Particle} (h : Divided ps qs) (s : List FEL) (n : Nat) {ps' : List Particle} {S : List FEL}
    (hr : Coupled.after ext dt ps s n = .ok (ps', S)) : ∃ qs', Coupled.after ext dt qs s n = .ok (qs', S) ∧ Divided ps' qs' := by
  induction n generalizing ps' S with
  | zero =>
    unfold Coupled.after at hr ⊢
    simp only [bind, Except.bind] at hr ⊢
    cases h1 : ps.mapM (fun p : Particle => dropState ((p.initTrajectory p.tCur p.XCur p.PCur p.ACur).InitVay dt (Coupled.field ext s))) with
    | error e => rw [h1] at hr; cases hr
    | ok a =>
      rw [h1] at hr
      obtain ⟨b, g1, g2⟩ := mapM_divided (fun k hk p => by
        show dropState (((p.initTrajectory p.tCur p.XCur p.PCur p.ACur).weigh k).InitVay dt (Coupled.field ext s)) = _
        rw [Particle.init_weigh k hk, Particle.drop_weigh]) h h1
      rw [g1]
      simp only at hr ⊢
      have e : FEL.init ⟨1, [⟨b.length, b⟩], 0, dt, .vay⟩ = FEL.init ⟨1, [⟨a.length, a⟩], 0, dt, .vay⟩ := fel_init_same rfl
      rw [e]
      cases h2 : s.mapM (FEL.init ⟨1, [⟨a.length, a⟩], 0, dt, .vay⟩) with
      | error e => rw [h2] at hr; cases hr
      | ok s' =>
        rw [h2] at hr
        injection hr with hr
        injection hr with hr1 hr2
        subst hr1 hr2
        exact ⟨b, rfl, g2⟩
  | succ n ih =>
    unfold Coupled.after at hr ⊢
    simp only [bind, Except.bind] at hr ⊢
    cases h0 : Coupled.after ext dt ps s n with
    | error e => rw [h0] at hr; cases hr
    | ok w =>
      obtain ⟨w1, w2⟩ := w
      rw [h0] at hr
      obtain ⟨v1, g1, g2⟩ := ih h0
      rw [g1]
      simp only at hr ⊢
      cases h1 : w1.mapM (fun p : Particle => dropState (p.StepVay (Coupled.field ext w2))) with
      | error e => rw [h1] at hr; cases hr
      | ok a =>
        rw [h1] at hr
        obtain ⟨b, k1, k2⟩ := mapM_divided (fun k _ p => by rw [Particle.step_weigh, Particle.drop_weigh]) g2 h1
        rw [k1]
        simp only at hr ⊢
        cases h2 : w2.mapM (FEL.step ⟨1, [⟨a.length, a⟩], n + 1, dt, .vay⟩) with
        | error e => rw [h2] at hr; cases hr
        | ok s' =>
          rw [h2] at hr
          rw [mapM_imp (g' := FEL.step ⟨1, [⟨b.length, b⟩], n + 1, dt, .vay⟩) (fun f f' hf => FEL.step_divided (dt := dt) (n := n + 1) k2 hf) h2]
          injection hr with hr
          injection hr with hr1 hr2
          subst hr1 hr2
          exact ⟨b, rfl, k2⟩

/-- non-vacuity of `C104_observed` and `C104_coupled`: a particle divided into three parts, one of them of the opposite sign, and an undivided one -/
example (p q : Particle) : Divided [p, q] [p.weigh (3 / 4), p.weigh (1 / 2), p.weigh (-1 / 4), q] := by
  have e : q = q.weigh 1 := by simp [Particle.weigh]
  have h := Divided.cons (p := p) (part := [p.weigh (3 / 4), p.weigh (1 / 2), p.weigh (-1 / 4)]) ⟨[3 / 4, 1 / 2, -1 / 4], by norm_num, by norm_num, rfl⟩
    (Divided.cons (p := q) (part := [q]) ⟨[1], by norm_num, by norm_num, by rw [List.map_cons, List.map_nil, ← e]⟩ .nil)
  simpa using h

namespace Lib

/-- **C104 (files).** Two input documents which differ in the beam only, where the macro-particles of the second are those of the first,
divided: whenever both runs succeed - with any numbers of nodes - the files of every observer of the beam show the same field, and the
files of the interactions are equal. -/
theorem C104_files (L : Lib) (rnd rnd' : Nat → (Nat → Nat → ℝ) × (Nat → Nat → Nat → ℝ)) (J J' : Indet) (nodes nodes' : Nat) (hN : 0 < nodes) (hN' : 0 < nodes') (doc doc' : Xml)
    (p p' : Parsed) (m m' : Beam) (hp : (L.withRandom (rnd 0)).parse doc = .ok p) (hp' : (L.withRandom (rnd' 0)).parse doc' = .ok p')
    (hm : masterBeam p = .ok m) (hm' : masterBeam p' = .ok m')
    (hlat : p'.lattice.lattice = p.lattice.lattice) (hdt : p'.tracking.timeStep = p.tracking.timeStep) (hnots : p'.tracking.NOTS = p.tracking.NOTS)
    (hint : p'.tracking.state.interactions = p.tracking.state.interactions) (hobs : p'.observers.observers = p.observers.observers)
    (hdiv : Divided m.all m'.all) (fs fs' : List OutFile) (h : L.program rnd J nodes doc = .ok fs) (h' : L.program rnd' J' nodes' doc' = .ok fs') :
    (∃ before files before' files' : List OutFile, fs = before ++ files ∧ fs' = before' ++ files' ∧
      files.length = p.observers.observers.length ∧ files'.length = p.observers.observers.length ∧
      ∀ (i : Nat) (spec : ObserverSpec), p.observers.observers[i]? = some spec → ∃ d d', files[i]? = some ⟨spec.file, d⟩ ∧ files'[i]? = some ⟨spec.file, d'⟩ ∧
        (spec.source = .beam → ∀ k ∈ spec.observer.keys, ∃ X F, Shows spec.observer d k X F ∧ Shows spec.observer d' k X F)) ∧
    (∀ (i : Nat) (name : String), i < p.tracking.state.interactions.length → (felFiles doc)[i]? = some (some name) → (felFiles doc')[i]? = some (some name) →
      ∃ F, (⟨name, .fel F⟩ : OutFile) ∈ fs ∧ (⟨name, .fel F⟩ : OutFile) ∈ fs') := by
  constructor
  · obtain ⟨p1, m1, s, hp1, hm1, hs, before, files, e1, l1, hf⟩ := C83_coupled_partial L rnd J nodes hN doc fs h
    obtain ⟨p2, m2, s2, hp2, hm2, hs2, before', files', e2, l2, hf2⟩ := C83_coupled_partial L rnd' J' nodes' hN' doc' fs' h'
    obtain rfl : p = p1 := by rw [hp] at hp1; injection hp1
    obtain rfl : p' = p2 := by rw [hp'] at hp2; injection hp2
    obtain rfl : m = m1 := by rw [hm] at hm1; injection hm1
    obtain rfl : m' = m2 := by rw [hm'] at hm2; injection hm2
    obtain rfl : s = s2 := by rw [hint, hs] at hs2; injection hs2
    refine ⟨before, files, before', files', e1, e2, l1, by rw [l2, hobs], ?_⟩
    intro i spec hi
    obtain ⟨d, d1, d2, _⟩ := hf i spec hi
    obtain ⟨d', d3, d4, _⟩ := hf2 i spec (by rw [hobs]; exact hi)
    refine ⟨d, d', d1, d3, fun hsrc k hk => ?_⟩
    obtain ⟨ps, S, a1, a2⟩ := d2 hsrc
    obtain ⟨qs, S', b1, b2⟩ := d4 hsrc
    rw [hlat, hdt, hnots] at b1
    obtain ⟨qs', c1, c2⟩ := C104_coupled _ _ hdiv s _ a1
    obtain rfl : qs = qs' := by
      rw [b1] at c1
      injection c1 with c1
      exact congrArg Prod.fst c1
    obtain ⟨t, X, Fs, f1, f2, f3⟩ := a2 k hk
    obtain ⟨t', X', Gs, g1, g2, g3⟩ := b2 k hk
    obtain ⟨Gs', k1, k2⟩ := C104_observed c2 spec.observer k f2
    obtain rfl : Gs = Gs' := by rw [g2] at k1; injection k1
    obtain rfl : X = X' := by
      rw [f1] at g1
      injection g1 with g1
      exact congrArg Prod.snd g1
    exact ⟨X, Fs.sum, f3, by rw [← k2]; exact g3⟩
  · intro i name hi hn hn'
    obtain ⟨p1, m1, s, ps, S, hp1, hm1, hs, hC, hF⟩ := C88_file L rnd J nodes hN doc fs h
    obtain ⟨p2, m2, s2, ps2, S2, hp2, hm2, hs2, hC2, hF2⟩ := C88_file L rnd' J' nodes' hN' doc' fs' h'
    obtain rfl : p = p1 := by rw [hp] at hp1; injection hp1
    obtain rfl : p' = p2 := by rw [hp'] at hp2; injection hp2
    obtain rfl : m = m1 := by rw [hm] at hm1; injection hm1
    obtain rfl : m' = m2 := by rw [hm'] at hm2; injection hm2
    obtain rfl : s = s2 := by rw [hint, hs] at hs2; injection hs2
    rw [hlat, hdt, hnots] at hC2
    obtain ⟨qs', c1, _⟩ := C104_coupled _ _ hdiv s _ hC
    obtain rfl : S2 = S := by
      rw [hC2] at c1
      injection c1 with c1
      exact congrArg Prod.snd c1
    have hl : i < S2.length := by
      rw [(after_length hC).2, ← (mapM_forall₂.mp hs).length_eq]
      exact hi
    obtain ⟨F, w1, w2⟩ := hF i S2[i] name (List.getElem?_eq_getElem hl) hn
    obtain ⟨F', w3, w4⟩ := hF2 i S2[i] name (List.getElem?_eq_getElem hl) hn'
    obtain rfl : F = F' := by rw [w1] at w3; injection w3
    exact ⟨F, w2, w4⟩

/-! ### Example: a particle of charge 2 or two particles of charge 1 -/

def sharesDoc (beam : List Xml) : Xml :=
  .node "" [] [.node "teufel" []
    [.node "lattice" [] [.node "background" [] [.node "E" [("x", "1")] []]],
     .node "beam" [] beam,
     .node "tracking" [("method", "Vay"), ("delta_t", "_h"), ("n", "2")] [],
     .node "observer" [] [.node "point" [("file", "point.sdds"), ("source", "beam")] [.node "position" [("x", "1")] [], .node "time" [("dt", "1"), ("n", "3")] []]]]]

def sharesEntry (charge : String) : Xml :=
  .node "particle" [("gamma", "2"), ("charge", charge), ("cmr", "1")] [.node "position" [] [], .node "momentum" [("z", "1")] []]

noncomputable def sharesParsed (bunches : List (Except Err Bunch)) : Parsed :=
  ⟨⟨predefined, [HomogeneousField ⟨1, 0, 0⟩ 0], 1⟩, ⟨predefined, bunches, [], none, bunches.length⟩,
    ⟨6.62607015e-34, 2, ⟨predefined, [], []⟩⟩, ⟨predefined, [⟨.point (PointObs.new ⟨1, 0, 0⟩ 0 1 3), .beam, "point.sdds"⟩]⟩⟩

theorem sharesDoc_parse (r : (Nat → Nat → ℝ) × (Nat → Nat → Nat → ℝ)) (one : Bool) :
    (exampleLib.withRandom r).parse (sharesDoc (if one then [sharesEntry "2"] else [sharesEntry "1", sharesEntry "1"]))
      = .ok (sharesParsed (if one then [singleParticle 2 2 1 0 ⟨0, 0, 0⟩ ⟨0, 0, 1⟩] else [singleParticle 2 1 1 0 ⟨0, 0, 0⟩ ⟨0, 0, 1⟩, singleParticle 2 1 1 0 ⟨0, 0, 0⟩ ⟨0, 0, 1⟩])) := by
  have hc : ∀ env node, (∀ c ∈ node.children, c.name ≠ "calc") → (exampleLib.withRandom r).parseCalcChildren env node = env := by
    intro env node hn
    unfold parseCalcChildren
    generalize node.children = l at hn
    induction l generalizing env with
    | nil => rfl
    | cons c l ih =>
      rw [List.foldl_cons, if_neg (hn c (by simp))]
      exact ih env (fun c' hc' => hn c' (by simp [hc']))
  have e0 : ∀ env, (exampleLib.withRandom r).eval env "" = env "" := by intro env; simp [withRandom, exampleLib]
  have e1 : ∀ env, (exampleLib.withRandom r).eval env "1" = some 1 := by intro env; simp [withRandom, exampleLib]
  have e2 : ∀ env, (exampleLib.withRandom r).eval env "2" = some 2 := by intro env; simp [withRandom, exampleLib]
  have e3 : (exampleLib.withRandom r).asInt "3" = 3 := by simp [withRandom, exampleLib]
  have e4 : (exampleLib.withRandom r).eval predefined "_h" = some 6.62607015e-34 := by simp [withRandom, exampleLib, predefined]
  have hpe := predefined_empty
  have h2 : toInt32 (crint 2) = .ok 2 := by simp [crint, toInt32]
  unfold parse sharesDoc
  simp only [Xml.child, Xml.children, Xml.name, List.find?, need, bind, Except.bind, pure, Except.pure, start, beq_self_eq_true]
  rw [hc _ _ (by simp [Xml.children, Xml.name])]
  simp only [parseLattice, parseBeam, parseTracking, parseObservers, Xml.child, Xml.children, Xml.name, List.find?, need, bind, Except.bind, pure, Except.pure]
  have p1 : (exampleLib.withRandom r).latticeStep ⟨predefined, [], 0⟩ (.node "background" [] [.node "E" [("x", "1")] []]) = .ok ⟨predefined, [HomogeneousField ⟨1, 0, 0⟩ 0], 1⟩ := by
    simp [latticeStep, latticeElement, Xml.name, parseCalcChildren, Xml.children, Except.map, Lattice.addElement, optVec, Xml.child, vec, num, Xml.value, Xml.attr, Xml.attrs, e0, e1, hpe]
  have p2 : ∀ bs n, (exampleLib.withRandom r).beamStep ⟨predefined, bs, [], none, n⟩ (sharesEntry "1") = .ok ⟨predefined, bs ++ [singleParticle 2 1 1 0 ⟨0, 0, 0⟩ ⟨0, 0, 1⟩], [], none, n + 1⟩ := by
    intro bs n
    simp [sharesEntry, beamStep, particleEntry, Xml.name, parseCalcChildren, Xml.children, Xml.child, need, bind, Except.bind, pure, Except.pure, parseLog, optNum, vec, num, Xml.value, Xml.attr, Xml.attrs, e0, e1, e2, hpe, List.lookup]
  have p3 : ∀ bs n, (exampleLib.withRandom r).beamStep ⟨predefined, bs, [], none, n⟩ (sharesEntry "2") = .ok ⟨predefined, bs ++ [singleParticle 2 2 1 0 ⟨0, 0, 0⟩ ⟨0, 0, 1⟩], [], none, n + 1⟩ := by
    intro bs n
    simp [sharesEntry, beamStep, particleEntry, Xml.name, parseCalcChildren, Xml.children, Xml.child, need, bind, Except.bind, pure, Except.pure, parseLog, optNum, vec, num, Xml.value, Xml.attr, Xml.attrs, e0, e1, e2, hpe, List.lookup]
  have p4 : (exampleLib.withRandom r).observerStep ⟨predefined, []⟩ (.node "point" [("file", "point.sdds"), ("source", "beam")] [.node "position" [("x", "1")] [], .node "time" [("dt", "1"), ("n", "3")] []])
      = .ok ⟨predefined, [⟨.point (PointObs.new ⟨1, 0, 0⟩ 0 1 3), .beam, "point.sdds"⟩]⟩ := by
    have hsrc : source (.node "point" [("file", "point.sdds"), ("source", "beam")] [.node "position" [("x", "1")] [], .node "time" [("dt", "1"), ("n", "3")] []]) = .ok .beam := by
      simp [source, Xml.attr, Xml.attrs, List.lookup]
    simp [observerStep, observerEntry, pointEntry, Xml.name, parseCalcChildren, Xml.children, Xml.child, need, bind, Except.bind, pure, Except.pure, hsrc, points, Except.map, vec, num, Xml.value, Xml.attr, Xml.attrs, e0, e1, e3, hpe, List.lookup]
  cases one <;>
  · simp [p1, p2, p3, Xml.value, Xml.attr, Xml.attrs, List.lookup, int, num, e1, e2, e4, h2, sharesParsed]
    simp [pure, Except.pure, bind, Except.bind, p2, p3, p4]
    try rw [e4]
    try rfl

/-- a particle of charge `q` (in units of the elementary charge) with the charge-to-mass ratio 1 -/
noncomputable def sharesParticle (q : ℝ) : Particle :=
  (Particle.new (q / ElementaryCharge) (q / ElementaryCharge)).initTrajectory 0 ⟨0, 0, 0⟩ (Vec.normalize ⟨0, 0, 1⟩ * Real.sqrt (2 * 2 - 1)) 0

theorem sharesParticle_single {q : ℝ} (hq : q ≠ 0) : singleParticle 2 q 1 0 ⟨0, 0, 0⟩ ⟨0, 0, 1⟩ = .ok (Bunch.empty.Add (sharesParticle q)) := by
  have hn : normalizeE ⟨0, 0, 1⟩ = .ok (Vec.normalize ⟨0, 0, 1⟩) := by
    unfold normalizeE
    rw [if_neg]
    intro h
    have := congrArg Vec.z h
    norm_num at this
  have hc : chargeMass (q / ElementaryCharge) 1 = .ok (q / ElementaryCharge, q / ElementaryCharge) := by
    unfold chargeMass
    rw [if_neg (by rw [not_or]; exact ⟨one_ne_zero, div_ne_zero hq (by norm_num [ElementaryCharge])⟩), div_one]
  have hb : betaGamma 2 = .ok (Real.sqrt (2 * 2 - 1)) := by
    unfold betaGamma
    rw [if_neg (by norm_num)]
  unfold singleParticle
  rw [hn, hc, hb]
  rfl

theorem sharesParticle_weigh {k : ℝ} (hk : k ≠ 0) (q : ℝ) : (sharesParticle q).weigh k = sharesParticle (k * q) := by
  unfold sharesParticle Particle.weigh Particle.initTrajectory Particle.new
  have e1 : k * q / ElementaryCharge = k * (q / ElementaryCharge) := mul_div_assoc _ _ _
  simp only [e1, mul_div_mul_left _ _ hk]

theorem sharesParsed_master (qs : List ℝ) (h : ∀ q ∈ qs, q ≠ 0) :
    ∃ m, masterBeam (sharesParsed (qs.map (fun q => singleParticle 2 q 1 0 ⟨0, 0, 0⟩ ⟨0, 0, 1⟩))) = .ok m ∧ m.all = qs.map sharesParticle := by
  have e : (qs.map (fun q => singleParticle 2 q 1 0 ⟨0, 0, 0⟩ ⟨0, 0, 1⟩)).mapM id = .ok (qs.map (fun q => Bunch.empty.Add (sharesParticle q))) := by
    induction qs with
    | nil => rfl
    | cons q qs ih =>
      rw [List.map_cons, List.mapM_cons, ih (fun q hq => h q (by simp [hq])), sharesParticle_single (h q (by simp))]
      rfl
  refine ⟨_, by simp only [masterBeam, sharesParsed, e, bind, Except.bind]; rfl, ?_⟩
  have g : ∀ (l : List ℝ) (b : Beam), ((l.map (fun q => Bunch.empty.Add (sharesParticle q))).foldl Beam.Add b).all = b.all ++ l.map sharesParticle := by
    intro l
    induction l with
    | nil => intro b; simp
    | cons q l ih =>
      intro b
      rw [List.map_cons, List.foldl_cons, ih]
      simp [Beam.all, Beam.Add, Bunch.Add, Bunch.empty]
  exact g qs Beam.empty

theorem sharesDoc_runs (rnd : Nat → (Nat → Nat → ℝ) × (Nat → Nat → Nat → ℝ)) (J : Indet) (nodes : Nat) (hN : 0 < nodes) (doc : Xml) (qs : List ℝ) (h : ∀ q ∈ qs, q ≠ 0)
    (hp : (exampleLib.withRandom (rnd 0)).parse doc = .ok (sharesParsed (qs.map (fun q => singleParticle 2 q 1 0 ⟨0, 0, 0⟩ ⟨0, 0, 1⟩)))) :
    ∃ fs, exampleLib.program rnd J nodes doc = .ok fs := by
  obtain ⟨m, hm, hall⟩ := sharesParsed_master qs h
  refine C86_without_interactions exampleLib rnd J nodes hN doc _ m hp hm (by simp [sharesParsed]) (fun t X => ⟨_, rfl⟩) ?_ (by simp [sharesParsed]) (by simp [sharesParsed]) ?_ rfl
  · intro q hq
    rw [hall, List.mem_map] at hq
    obtain ⟨c, hc, rfl⟩ := hq
    exact div_ne_zero (h c hc) (by norm_num [ElementaryCharge])
  · intro spec hspec
    simp only [sharesParsed, List.mem_singleton] at hspec
    subst hspec
    refine ⟨⟨by simp [Observer.keys, PointObs.new, FieldTrace.new], by intro s hs; cases hs⟩, fun _ => ⟨by norm_num [sharesParsed], by show (0 : ℝ) < 1; norm_num, ?_⟩⟩
    intro q hq a ha
    rw [hall, List.mem_map] at hq
    obtain ⟨c, hc, rfl⟩ := hq
    have hreach : (sharesParticle c).Reachable := ⟨_, [.init 0 ⟨0, 0, 0⟩ _ 0], Or.inl ⟨_, _, rfl⟩, rfl⟩
    refine clear_far (by intro s hs; cases hs) hreach (by norm_num [sharesParsed]) (alone_moved ha) ?_
    intro key _ t X hX
    have hX' : X = ⟨1, 0, 0⟩ := by
      injection hX with hX
      exact (congrArg Prod.snd hX).symm
    have h0 : (sharesParticle c).XCur = ⟨0, 0, 0⟩ := rfl
    have hn : ∀ b, (sharesParsed b).tracking.NOTS.toNat = 2 := fun _ => rfl
    rw [hX', h0, hn]
    have : Vec.norm ((⟨1, 0, 0⟩ : Vec) - ⟨0, 0, 0⟩) = 1 := by simp [Vec.norm]
    rw [this]
    norm_num [sharesParsed, SpeedOfLight]

/-- non-vacuity of `C104_files`: a particle of charge 2 on three nodes and two particles of charge 1 on five nodes -/
example (rnd : Nat → (Nat → Nat → ℝ) × (Nat → Nat → Nat → ℝ)) (J : Indet) :
    ∃ p p' m m' fs fs', (exampleLib.withRandom (rnd 0)).parse (sharesDoc [sharesEntry "2"]) = .ok p ∧ (exampleLib.withRandom (rnd 0)).parse (sharesDoc [sharesEntry "1", sharesEntry "1"]) = .ok p' ∧
      masterBeam p = .ok m ∧ masterBeam p' = .ok m' ∧ p'.lattice.lattice = p.lattice.lattice ∧ p'.tracking.timeStep = p.tracking.timeStep ∧ p'.tracking.NOTS = p.tracking.NOTS ∧
      p'.tracking.state.interactions = p.tracking.state.interactions ∧ p'.observers.observers = p.observers.observers ∧ Divided m.all m'.all ∧
      exampleLib.program rnd J 3 (sharesDoc [sharesEntry "2"]) = .ok fs ∧ exampleLib.program rnd J 5 (sharesDoc [sharesEntry "1", sharesEntry "1"]) = .ok fs' := by
  have hp := sharesDoc_parse (rnd 0) true
  have hp' := sharesDoc_parse (rnd 0) false
  obtain ⟨m, hm, ha⟩ := sharesParsed_master [2] (by norm_num)
  obtain ⟨m', hm', ha'⟩ := sharesParsed_master [1, 1] (by norm_num)
  obtain ⟨fs, hfs⟩ := sharesDoc_runs rnd J 3 (by norm_num) _ [2] (by norm_num) hp
  obtain ⟨fs', hfs'⟩ := sharesDoc_runs rnd J 5 (by norm_num) _ [1, 1] (by norm_num) hp'
  refine ⟨_, _, m, m', fs, fs', hp, hp', hm, hm', rfl, rfl, rfl, rfl, rfl, ?_, hfs, hfs'⟩
  rw [ha, ha']
  have h := Divided.cons (p := sharesParticle 2) (part := [sharesParticle 1, sharesParticle 1])
    ⟨[1 / 2, 1 / 2], by norm_num, by norm_num, by simp only [List.map_cons, List.map_nil, sharesParticle_weigh (k := 1 / 2) (by norm_num)]; norm_num⟩ .nil
  simpa using h

end Lib
end Teufel
