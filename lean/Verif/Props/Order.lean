import Verif.Lemmas.Order
import Verif.Props.Parts

/-!
# C126: the order of the elements of the lattice does not matter

The input files of two runs differ in the order of the elements of the lattice only.  The runs use the same random numbers for the beam, but each may have its own
number of nodes.  There may be interactions.
-/

namespace Teufel
open Vec Input

namespace Lib

theorem order_setup {L : Lib} {doc doc' : Xml} (ho : OtherOrder doc doc') {p p' : Parsed} (hp : L.parse doc = .ok p) (hp' : L.parse doc' = .ok p') {m m' : Beam}
    (hm : masterBeam p = .ok m) (hm' : masterBeam p' = .ok m') :
    Extends (Lattice.field p.lattice.lattice) (Lattice.field p'.lattice.lattice) ∧ p'.tracking = p.tracking ∧ p'.observers = p.observers ∧ m'.all = m.all := by
  obtain ⟨e1, e2, e3, e4⟩ := L.parse_order ho hp hp'
  refine ⟨lattice_perm e1, e3, e4, ?_⟩
  have : masterBeam p' = masterBeam p := by
    unfold masterBeam
    rw [e2, e3]
  rw [this, hm] at hm'
  cases hm'
  rfl

/-- C126: every observer records the same fields.  (An observer of the lattice shows its field multiplied by the number of nodes, see C38.) -/
theorem C126_observers (L : Lib) (rnd rnd' : Nat → (Nat → Nat → ℝ) × (Nat → Nat → Nat → ℝ)) (hr : rnd' 0 = rnd 0) (J J' : Indet) (nodes nodes' : Nat) (hN : 0 < nodes) (hN' : 0 < nodes')
    (doc doc' : Xml) (ho : OtherOrder doc doc') (fs fs' : List OutFile) (h : L.program rnd J nodes doc = .ok fs) (h' : L.program rnd' J' nodes' doc' = .ok fs') :
    ∃ p, (L.withRandom (rnd 0)).parse doc = .ok p ∧ ∀ spec ∈ p.observers.observers, ∃ d d', (⟨spec.file, d⟩ : OutFile) ∈ fs ∧ (⟨spec.file, d'⟩ : OutFile) ∈ fs' ∧
      ∀ k ∈ spec.observer.keys, ∃ X F,
        (spec.source = .beam → Shows spec.observer d k X F ∧ Shows spec.observer d' k X F) ∧
        (spec.source = .lattice → Shows spec.observer d k X (F * (nodes : ℝ)) ∧ Shows spec.observer d' k X (F * (nodes' : ℝ))) := by
  obtain ⟨p, m, s, hp, hm, hs, bef, files, hfs, hlen, hw⟩ := C83_coupled_partial L rnd J nodes hN doc fs h
  obtain ⟨p', m', s', hp', hm', hs', bef', files', hfs', hlen', hw'⟩ := C83_coupled_partial L rnd' J' nodes' hN' doc' fs' h'
  rw [hr] at hp'
  obtain ⟨e1, e2, e3, e4⟩ := order_setup ho hp hp' hm hm'
  rw [e2, hs] at hs'
  injection hs' with hs'
  subst hs'
  refine ⟨p, hp, ?_⟩
  intro spec hspec
  obtain ⟨i, hi⟩ := List.getElem?_of_mem hspec
  obtain ⟨d, q1, q2, q3⟩ := hw i spec hi
  obtain ⟨d', r1, r2, r3⟩ := hw' i spec (by rw [e3]; exact hi)
  refine ⟨d, d', by rw [hfs]; exact List.mem_append_right _ (List.mem_of_getElem? q1), by rw [hfs']; exact List.mem_append_right _ (List.mem_of_getElem? r1), ?_⟩
  intro k hk
  cases hsrc : spec.source with
  | beam =>
    obtain ⟨ps, S, x1, x2⟩ := q2 hsrc
    obtain ⟨ps', S', y1, y2⟩ := r2 hsrc
    rw [e2, e4, after_extends e1 x1] at y1
    cases y1
    obtain ⟨t, X, Fs, f1, f2, f3⟩ := x2 k hk
    obtain ⟨t', X', Gs, g1, g2, g3⟩ := y2 k hk
    rw [f1] at g1
    cases g1
    rw [f2] at g2
    cases g2
    exact ⟨X, Fs.sum, fun _ => ⟨f3, g3⟩, fun hc => by cases hc⟩
  | lattice =>
    obtain ⟨t, X, F, f1, f2, f3⟩ := q3 hsrc k hk
    obtain ⟨t', X', G, g1, g2, g3⟩ := r3 hsrc k hk
    rw [f1] at g1
    cases g1
    rw [e1 _ _ _ f2] at g2
    cases g2
    exact ⟨X, F, (fun hc => by cases hc), fun _ => ⟨f3, g3⟩⟩

/-- C126: every watch point writes the same file. -/
theorem C126_watches (L : Lib) (rnd rnd' : Nat → (Nat → Nat → ℝ) × (Nat → Nat → Nat → ℝ)) (hr : rnd' 0 = rnd 0) (J J' : Indet) (nodes nodes' : Nat) (hN : 0 < nodes) (hN' : 0 < nodes')
    (doc doc' : Xml) (ho : OtherOrder doc doc') (fs fs' : List OutFile) (h : L.program rnd J nodes doc = .ok fs) (h' : L.program rnd' J' nodes' doc' = .ok fs') :
    ∃ p, (L.withRandom (rnd 0)).parse doc = .ok p ∧ ∀ x ∈ p.tracking.state.watches, 0 ≤ x.step → x.step ≤ p.tracking.NOTS →
      ∃ d, (⟨x.filename, .watch d⟩ : OutFile) ∈ fs ∧ (⟨x.filename, .watch d⟩ : OutFile) ∈ fs' := by
  obtain ⟨p, m, s, hp, hm, hs, hw⟩ := C85_watches_coupled_partial L rnd J nodes hN doc fs h
  obtain ⟨p', m', s', hp', hm', hs', hw'⟩ := C85_watches_coupled_partial L rnd' J' nodes' hN' doc' fs' h'
  rw [hr] at hp'
  obtain ⟨e1, e2, e3, e4⟩ := order_setup ho hp hp' hm hm'
  rw [e2, hs] at hs'
  injection hs' with hs'
  subst hs'
  refine ⟨p, hp, ?_⟩
  intro x hx h0 h1
  obtain ⟨d, bs, S, d1, d2, d3, d4⟩ := hw x hx h0 h1
  obtain ⟨d', bs', S', d1', d2', d3', d4'⟩ := hw' x (by rw [e2]; exact hx) h0 (by rw [e2]; exact h1)
  rw [e2, e4, after_extends e1 d2] at d2'
  cases d2'
  have : d' = d := by
    cases ht : x.type with
    | hdf5 => rw [d3 ht, d3' ht]
    | sdds =>
      obtain ⟨rows, r1, r2⟩ := d4 ht
      obtain ⟨rows', r1', r2'⟩ := d4' ht
      rw [r1, r1', e4]
      congr 1
      clear * - r2 r2'
      induction r2 generalizing rows' with
      | nil => cases r2'; rfl
      | cons hx _ ih =>
        cases r2' with
        | cons hy r2' => rw [row_unique hx hy, ih _ r2']
  subst this
  exact ⟨_, d1, d1'⟩

/-- C126: every interaction with a log writes the same file. -/
theorem C126_interactions (L : Lib) (rnd rnd' : Nat → (Nat → Nat → ℝ) × (Nat → Nat → Nat → ℝ)) (hr : rnd' 0 = rnd 0) (J J' : Indet) (nodes nodes' : Nat) (hN : 0 < nodes) (hN' : 0 < nodes')
    (doc doc' : Xml) (ho : OtherOrder doc doc') (fs fs' : List OutFile) (h : L.program rnd J nodes doc = .ok fs) (h' : L.program rnd' J' nodes' doc' = .ok fs') :
    ∃ p s, (L.withRandom (rnd 0)).parse doc = .ok p ∧ p.tracking.state.interactions.mapM id = .ok s ∧
      ∀ (i : Nat) (name : String), i < s.length → (felFiles doc)[i]? = some (some name) → ∃ F, (⟨name, .fel F⟩ : OutFile) ∈ fs ∧ (⟨name, .fel F⟩ : OutFile) ∈ fs' := by
  obtain ⟨p, m, s, ps, S, hp, hm, hs, hC, hw⟩ := C88_file L rnd J nodes hN doc fs h
  obtain ⟨p', m', s', ps', S', hp', hm', hs', hC', hw'⟩ := C88_file L rnd' J' nodes' hN' doc' fs' h'
  rw [hr] at hp'
  obtain ⟨e1, e2, e3, e4⟩ := order_setup ho hp hp' hm hm'
  rw [e2, hs] at hs'
  injection hs' with hs'
  subst hs'
  rw [e2, e4, after_extends e1 hC] at hC'
  cases hC'
  have hff : felFiles doc' = felFiles doc := by
    obtain ⟨root, root', before, after, attrs, attrs', l, l', d, d', c, c', -⟩ := ho
    have hother : ∀ (r : Xml) a l (hr : r.children = before ++ .node "lattice" a l :: after), r.child "tracking" = (before ++ after).find? (fun c => c.name == "tracking") := by
      intro r a l hr
      unfold Xml.child
      rw [hr, List.find?_append, List.find?_append, List.find?_cons]
      have : ((Xml.node "lattice" a l).name == "tracking") = false := by simp [Xml.name]
      rw [this]
    unfold felFiles
    rw [d, d']
    simp only [Option.bind]
    rw [hother _ _ _ c, hother _ _ _ c']
  refine ⟨p, s, hp, hs, ?_⟩
  intro i name hi hname
  have hlen : S.length = s.length := (after_length hC).2
  obtain ⟨f, hf⟩ : ∃ f, S[i]? = some f := ⟨_, List.getElem?_eq_getElem (by omega)⟩
  obtain ⟨F, g1, g2⟩ := hw i f name hf hname
  obtain ⟨F', k1, k2⟩ := hw' i f name hf (by rw [hff]; exact hname)
  rw [g1] at k1
  cases k1
  exact ⟨F, g2, k2⟩

/-! ## Example: an electric and a magnetic background -/

def orderDoc (lattice : List Xml) : Xml :=
  .node "" [] [.node "teufel" []
    [.node "lattice" [] lattice,
     .node "beam" [] [sharesEntry "1"],
     .node "tracking" [("method", "Vay"), ("delta_t", "_h"), ("n", "2")] [.node "watch-sdds" [("step", "1"), ("file", "early.sdds")] []],
     .node "observer" [] [.node "point" [("file", "point.sdds"), ("source", "beam")] [.node "position" [("x", "1")] [], .node "time" [("dt", "1"), ("n", "3")] []]]]]

def orderE : Xml := .node "background" [] [.node "E" [("x", "1")] []]
def orderB : Xml := .node "background" [] [.node "B" [("y", "2")] []]

noncomputable def orderParsed (l : Lattice) : Parsed :=
  ⟨⟨predefined, l, 2⟩, ⟨predefined, [singleParticle 2 1 1 0 ⟨0, 0, 0⟩ ⟨0, 0, 1⟩], [], none, 1⟩,
    ⟨6.62607015e-34, 2, ⟨predefined, [⟨1, "early.sdds", .sdds⟩], []⟩⟩, ⟨predefined, [⟨.point (PointObs.new ⟨1, 0, 0⟩ 0 1 3), .beam, "point.sdds"⟩]⟩⟩

theorem orderDoc_order : OtherOrder (orderDoc [orderE, orderB]) (orderDoc [orderB, orderE]) := by
  refine ⟨_, _, [], _, [], [], [orderE, orderB], [orderB, orderE], rfl, rfl, rfl, rfl, by simp, .swap _ _ _, ?_⟩
  intro e he
  simp only [List.mem_cons, List.not_mem_nil, or_false] at he
  rcases he with rfl | rfl <;> simp [orderE, orderB, Xml.name, Xml.children]

theorem orderDoc_parse (r : (Nat → Nat → ℝ) × (Nat → Nat → Nat → ℝ)) :
    (exampleLib.withRandom r).parse (orderDoc [orderE, orderB]) = .ok (orderParsed [HomogeneousField ⟨1, 0, 0⟩ 0, HomogeneousField 0 ⟨0, 2, 0⟩]) ∧
    (exampleLib.withRandom r).parse (orderDoc [orderB, orderE]) = .ok (orderParsed [HomogeneousField 0 ⟨0, 2, 0⟩, HomogeneousField ⟨1, 0, 0⟩ 0]) := by
  have hc : ∀ env node, (∀ c ∈ node.children, c.name ≠ "calc") → (exampleLib.withRandom r).parseCalcChildren env node = env := fun env node h => calcChildren_none _ env node h
  have e0 : ∀ env, (exampleLib.withRandom r).eval env "" = env "" := by intro env; simp [withRandom, exampleLib]
  have e1 : ∀ env, (exampleLib.withRandom r).eval env "1" = some 1 := by intro env; simp [withRandom, exampleLib]
  have e2 : ∀ env, (exampleLib.withRandom r).eval env "2" = some 2 := by intro env; simp [withRandom, exampleLib]
  have e3 : (exampleLib.withRandom r).asInt "3" = 3 := by simp [withRandom, exampleLib]
  have e4 : (exampleLib.withRandom r).eval predefined "_h" = some 6.62607015e-34 := by simp [withRandom, exampleLib, predefined]
  have hpe := predefined_empty
  have h1 : toInt32 (crint 1) = .ok 1 := by simp [crint, toInt32]
  have h2 : toInt32 (crint 2) = .ok 2 := by simp [crint, toInt32]
  have p1 : ∀ l n, (exampleLib.withRandom r).latticeStep ⟨predefined, l, n⟩ orderE = .ok ⟨predefined, l ++ [HomogeneousField ⟨1, 0, 0⟩ 0], n + 1⟩ := by
    intro l n
    simp [orderE, latticeStep, latticeElement, Xml.name, parseCalcChildren, Xml.children, Except.map, Lattice.addElement, optVec, Xml.child, vec, num, Xml.value, Xml.attr, Xml.attrs, e0, e1, hpe]
  have p1' : ∀ l n, (exampleLib.withRandom r).latticeStep ⟨predefined, l, n⟩ orderB = .ok ⟨predefined, l ++ [HomogeneousField 0 ⟨0, 2, 0⟩], n + 1⟩ := by
    intro l n
    simp [orderB, latticeStep, latticeElement, Xml.name, parseCalcChildren, Xml.children, Except.map, Lattice.addElement, optVec, Xml.child, vec, num, Xml.value, Xml.attr, Xml.attrs, e0, e2, hpe, List.lookup]
  have p2 : ∀ bs n, (exampleLib.withRandom r).beamStep ⟨predefined, bs, [], none, n⟩ (sharesEntry "1") = .ok ⟨predefined, bs ++ [singleParticle 2 1 1 0 ⟨0, 0, 0⟩ ⟨0, 0, 1⟩], [], none, n + 1⟩ := by
    intro bs n
    simp [sharesEntry, beamStep, particleEntry, Xml.name, parseCalcChildren, Xml.children, Xml.child, need, bind, Except.bind, pure, Except.pure, parseLog, optNum, vec, num, Xml.value, Xml.attr, Xml.attrs, e0, e1, e2, hpe, List.lookup]
  have p5 : ∀ t ws, (exampleLib.withRandom r).trackStep t ⟨predefined, ws, []⟩ (.node "watch-sdds" [("step", "1"), ("file", "early.sdds")] []) = .ok ⟨predefined, ws ++ [⟨1, "early.sdds", .sdds⟩], []⟩ := by
    intro t ws
    simp [trackStep, watchEntry, Xml.name, need, bind, Except.bind, pure, Except.pure, int, num, Xml.value, Xml.attr, Xml.attrs, e1, h1, List.lookup]
  have p4 : (exampleLib.withRandom r).observerStep ⟨predefined, []⟩ (.node "point" [("file", "point.sdds"), ("source", "beam")] [.node "position" [("x", "1")] [], .node "time" [("dt", "1"), ("n", "3")] []])
      = .ok ⟨predefined, [⟨.point (PointObs.new ⟨1, 0, 0⟩ 0 1 3), .beam, "point.sdds"⟩]⟩ := by
    have hsrc : source (.node "point" [("file", "point.sdds"), ("source", "beam")] [.node "position" [("x", "1")] [], .node "time" [("dt", "1"), ("n", "3")] []]) = .ok .beam := by
      simp [source, Xml.attr, Xml.attrs, List.lookup]
    simp [observerStep, observerEntry, pointEntry, Xml.name, parseCalcChildren, Xml.children, Xml.child, need, bind, Except.bind, pure, Except.pure, hsrc, points, Except.map, vec, num, Xml.value, Xml.attr, Xml.attrs, e0, e1, e3, hpe, List.lookup]
  constructor <;>
  · unfold parse orderDoc
    simp only [Xml.child, Xml.children, Xml.name, List.find?, need, bind, Except.bind, pure, Except.pure, start, beq_self_eq_true]
    rw [hc _ _ (by simp [Xml.children, Xml.name])]
    simp only [parseLattice, parseBeam, parseTracking, parseObservers, Xml.child, Xml.children, Xml.name, List.find?, need, bind, Except.bind, pure, Except.pure]
    simp [p1, p1', p2, Xml.value, Xml.attr, Xml.attrs, List.lookup, int, num, e1, e2, e4, h2, orderParsed]
    simp [pure, Except.pure, bind, Except.bind, p1, p1', p2, p4, p5]
    try rw [e4]
    try rfl

theorem orderDoc_runs (rnd : Nat → (Nat → Nat → ℝ) × (Nat → Nat → Nat → ℝ)) (J : Indet) (nodes : Nat) (hN : 0 < nodes) (doc : Xml) (l : Lattice) (hl : ∀ t X, ∃ F, Lattice.field l t X = .ok F)
    (hp : (exampleLib.withRandom (rnd 0)).parse doc = .ok (orderParsed l)) : ∃ fs, exampleLib.program rnd J nodes doc = .ok fs := by
  have hm' : masterBeam (orderParsed l) = masterBeam (partsParsed [singleParticle 2 1 1 0 ⟨0, 0, 0⟩ ⟨0, 0, 1⟩]) := rfl
  obtain ⟨m, hm, hall⟩ := partsParsed_master [1] (by norm_num)
  simp only [List.map_cons, List.map_nil] at hm hall
  rw [← hm'] at hm
  refine C86_without_interactions exampleLib rnd J nodes hN doc _ m hp hm (by simp [orderParsed]) hl ?_ (by simp [orderParsed]) (by simp [orderParsed]) ?_ rfl
  · intro q hq
    rw [hall, List.mem_singleton] at hq
    subst hq
    exact div_ne_zero (by norm_num) (by norm_num [ElementaryCharge])
  · intro spec hspec
    simp only [orderParsed, List.mem_singleton] at hspec
    subst hspec
    refine ⟨⟨by simp [Observer.keys, PointObs.new, FieldTrace.new], by intro s hs; cases hs⟩, fun _ => ⟨by norm_num [orderParsed], by show (0 : ℝ) < 1; norm_num, ?_⟩⟩
    intro q hq a ha
    rw [hall, List.mem_singleton] at hq
    subst hq
    have hreach : (sharesParticle 1).Reachable := ⟨_, [.init 0 ⟨0, 0, 0⟩ _ 0], Or.inl ⟨_, _, rfl⟩, rfl⟩
    refine clear_far (by intro s hs; cases hs) hreach (by norm_num [orderParsed]) (alone_moved ha) ?_
    intro key _ t X hX
    have hX' : X = ⟨1, 0, 0⟩ := by
      injection hX with hX
      exact (congrArg Prod.snd hX).symm
    have h0 : (sharesParticle 1).XCur = ⟨0, 0, 0⟩ := rfl
    have hn : ∀ b, (orderParsed b).tracking.NOTS.toNat = 2 := fun _ => rfl
    rw [hX', h0, hn]
    have : Vec.norm ((⟨1, 0, 0⟩ : Vec) - ⟨0, 0, 0⟩) = 1 := by simp [Vec.norm]
    rw [this]
    norm_num [orderParsed, SpeedOfLight]

/-- non-vacuity of C126: an electric and a magnetic background in either order, on five nodes and on three -/
example (rnd rnd' : Nat → (Nat → Nat → ℝ) × (Nat → Nat → Nat → ℝ)) (hr : rnd' 0 = rnd 0) (J J' : Indet) :
    ∃ fs fs' d d' w, exampleLib.program rnd J 5 (orderDoc [orderE, orderB]) = .ok fs ∧ exampleLib.program rnd' J' 3 (orderDoc [orderB, orderE]) = .ok fs' ∧
      (⟨"point.sdds", d⟩ : OutFile) ∈ fs ∧ (⟨"point.sdds", d'⟩ : OutFile) ∈ fs' ∧
      (∀ k < 3, ∃ X F, Shows (.point (PointObs.new ⟨1, 0, 0⟩ 0 1 3)) d ((0, 0), k) X F ∧ Shows (.point (PointObs.new ⟨1, 0, 0⟩ 0 1 3)) d' ((0, 0), k) X F) ∧
      (⟨"early.sdds", .watch w⟩ : OutFile) ∈ fs ∧ (⟨"early.sdds", .watch w⟩ : OutFile) ∈ fs' := by
  have hp := fun r => orderDoc_parse r
  obtain ⟨fs, h⟩ := orderDoc_runs rnd J 5 (by norm_num) _ _ (fun t X => ⟨_, rfl⟩) (hp _).1
  obtain ⟨fs', h'⟩ := orderDoc_runs rnd' J' 3 (by norm_num) _ _ (fun t X => ⟨_, rfl⟩) (hp _).2
  obtain ⟨p, g1, g2⟩ := C126_observers exampleLib rnd rnd' hr J J' 5 3 (by norm_num) (by norm_num) _ _ orderDoc_order fs fs' h h'
  obtain ⟨q, k1, k2⟩ := C126_watches exampleLib rnd rnd' hr J J' 5 3 (by norm_num) (by norm_num) _ _ orderDoc_order fs fs' h h'
  rw [(hp (rnd 0)).1] at g1 k1
  cases g1
  cases k1
  obtain ⟨d, d', f1, f2, f3⟩ := g2 ⟨.point (PointObs.new ⟨1, 0, 0⟩ 0 1 3), .beam, "point.sdds"⟩ (by simp [orderParsed])
  obtain ⟨w, v1, v2⟩ := k2 ⟨1, "early.sdds", .sdds⟩ (by simp [orderParsed]) (by norm_num) (by simp [orderParsed])
  refine ⟨fs, fs', d, d', w, h, h', f1, f2, ?_, v1, v2⟩
  intro k hk
  obtain ⟨X, F, a, -⟩ := f3 ((0, 0), k) (by simp [Observer.keys, PointObs.new, FieldTrace.new, hk])
  exact ⟨X, F, a rfl⟩

end Lib
end Teufel
