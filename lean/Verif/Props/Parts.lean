import Verif.Lemmas.Parts
import Verif.Props.LongerRun
import Verif.Props.Shares

/-!
# C125: a beam may be simulated in parts

The input files of three runs are equal except for the beam, and the beam of the first one consists of the entries of the other two.  Each run may have its own
number of nodes and its own random numbers.  There are no interactions.
-/

namespace Teufel
open Vec Input

namespace Lib

/-- the random numbers have no influence on the files in question -/
theorem plain_random (L : Lib) (r : (Nat → Nat → ℝ) × (Nat → Nat → Nat → ℝ)) {e : Xml} (he : PlainEntry e) (s : BeamState) : (L.withRandom r).beamStep s e = L.beamStep s e := by
  rcases he.1 with hn | hn | hn
  · unfold beamStep
    rw [if_neg (by rw [hn]; decide), if_pos hn, if_neg (by rw [hn]; decide), if_pos hn]
    rfl
  · unfold beamStep
    rw [if_neg (by rw [hn]; decide), if_neg (by rw [hn]; decide), if_neg (by rw [hn]; decide), if_pos hn, if_neg (by rw [hn]; decide), if_neg (by rw [hn]; decide), if_neg (by rw [hn]; decide), if_pos hn]
    rfl
  · unfold beamStep
    rw [if_neg (by rw [hn]; decide), if_neg (by rw [hn]; decide), if_neg (by rw [hn]; decide), if_neg (by rw [hn]; decide), if_pos hn, if_neg (by rw [hn]; decide), if_neg (by rw [hn]; decide), if_neg (by rw [hn]; decide), if_neg (by rw [hn]; decide), if_pos hn]
    rfl

theorem fold_random_plain (L : Lib) (r : (Nat → Nat → ℝ) × (Nat → Nat → Nat → ℝ)) (l : List Xml) (h : ∀ e ∈ l, PlainEntry e) (s : BeamState) :
    l.foldlM (L.withRandom r).beamStep s = l.foldlM L.beamStep s := by
  induction l generalizing s with
  | nil => rw [List.foldlM_nil, List.foldlM_nil]
  | cons e l ih =>
    rw [List.foldlM_cons, List.foldlM_cons, plain_random L r (h e (by simp))]
    congr 1
    funext t
    exact ih (fun e he => h e (by simp [he])) t

theorem beam_random_plain (L : Lib) (r : (Nat → Nat → ℝ) × (Nat → Nat → Nat → ℝ)) {root node : Xml} (h2 : root.child "beam" = some node)
    (h : ∀ e ∈ node.children, PlainEntry e) (env : Env) : (L.withRandom r).parseBeam root env = L.parseBeam root env := by
  unfold parseBeam
  rw [h2]
  exact fold_random_plain L r _ h _

theorem parse_random_plain (L : Lib) (r : (Nat → Nat → ℝ) × (Nat → Nat → Nat → ℝ)) {doc : Xml} {root node : Xml} (h1 : doc.child "teufel" = some root) (h2 : root.child "beam" = some node)
    (h : ∀ e ∈ node.children, PlainEntry e) : (L.withRandom r).parse doc = L.parse doc := by
  have e1 : (L.withRandom r).parseLattice root ((L.withRandom r).start root) [] = L.parseLattice root (L.start root) [] := rfl
  have hb := beam_random_plain L r h2 h
  have e2 : ∀ env, (L.withRandom r).parseTracking root env = L.parseTracking root env := fun _ => rfl
  have e3 : ∀ env, (L.withRandom r).parseObservers root env = L.parseObservers root env := fun _ => rfl
  unfold parse
  rw [h1]
  simp only [need, bind, Except.bind]
  rw [e1]
  cases L.parseLattice root (L.start root) [] with
  | error e => rfl
  | ok lat =>
  simp only
  rw [hb]
  cases L.parseBeam root lat.env with
  | error e => rfl
  | ok be =>
  simp only
  rw [e2]
  cases L.parseTracking root be.env with
  | error e => rfl
  | ok tr =>
  simp only
  rw [e3]

/-- all three files are read in the same way, whatever the random numbers -/
theorem parts_random (L : Lib) {doc doc1 doc2 : Xml} (h : InParts doc doc1 doc2) (r r' : (Nat → Nat → ℝ) × (Nat → Nat → Nat → ℝ)) :
    (L.withRandom r).parse doc1 = (L.withRandom r').parse doc1 ∧ (L.withRandom r).parse doc2 = (L.withRandom r').parse doc2 := by
  obtain ⟨root, root1, root2, before, after, attrs, attrs1, attrs2, l1, l2, d, d1, d2, c, c1, c2, hb, hpl⟩ := h
  have hbeam : ∀ (r : Xml) a l (hr : r.children = before ++ .node "beam" a l :: after), r.child "beam" = some (.node "beam" a l) := by
    intro r a l hr
    unfold Xml.child
    rw [hr, List.find?_append]
    have : before.find? (fun c => c.name == "beam") = none := by
      rw [List.find?_eq_none]
      intro x hx
      simpa using hb x hx
    rw [this]
    rfl
  have g1 := fun r => parse_random_plain L r d1 (hbeam _ _ _ c1) (fun e he => hpl e (List.mem_append_left _ he))
  have g2 := fun r => parse_random_plain L r d2 (hbeam _ _ _ c2) (fun e he => hpl e (List.mem_append_right _ he))
  exact ⟨(g1 r).trans (g1 r').symm, (g2 r).trans (g2 r').symm⟩

/-- C125: without interactions, the radiation of a beam is the sum of the radiations of its parts: every sample in the file of an observer of the beam is the sum
of the samples in the files of the runs with one part each. -/
theorem C125_radiation (L : Lib) (rnd rnd1 rnd2 : Nat → (Nat → Nat → ℝ) × (Nat → Nat → Nat → ℝ)) (J J1 J2 : Indet) (nodes nodes1 nodes2 : Nat) (hN : 0 < nodes) (hN1 : 0 < nodes1) (hN2 : 0 < nodes2)
    (doc doc1 doc2 : Xml) (hd : InParts doc doc1 doc2) (fs fs1 fs2 : List OutFile) (h : L.program rnd J nodes doc = .ok fs) (h1 : L.program rnd1 J1 nodes1 doc1 = .ok fs1)
    (h2 : L.program rnd2 J2 nodes2 doc2 = .ok fs2) :
    ∃ p, (L.withRandom (rnd 0)).parse doc = .ok p ∧ (p.tracking.state.interactions = [] → ∀ spec ∈ p.observers.observers, spec.source = .beam →
      ∃ d d1 d2, (⟨spec.file, d⟩ : OutFile) ∈ fs ∧ (⟨spec.file, d1⟩ : OutFile) ∈ fs1 ∧ (⟨spec.file, d2⟩ : OutFile) ∈ fs2 ∧
        ∀ k ∈ spec.observer.keys, ∃ X F1 F2, Shows spec.observer d k X (F1 + F2) ∧ Shows spec.observer d1 k X F1 ∧ Shows spec.observer d2 k X F2) := by
  obtain ⟨p, m, s, hp, hm, hs, bef, files, hfs, hlen, hw⟩ := C83_coupled_partial L rnd J nodes hN doc fs h
  obtain ⟨p1, m1, s1, hp1, hm1, hs1, bef1, files1, hfs1, hlen1, hw1⟩ := C83_coupled_partial L rnd1 J1 nodes1 hN1 doc1 fs1 h1
  obtain ⟨p2, m2, s2, hp2, hm2, hs2, bef2, files2, hfs2, hlen2, hw2⟩ := C83_coupled_partial L rnd2 J2 nodes2 hN2 doc2 fs2 h2
  rw [(parts_random L hd (rnd1 0) (rnd 0)).1] at hp1
  rw [(parts_random L hd (rnd2 0) (rnd 0)).2] at hp2
  obtain ⟨⟨a1, a2⟩, ⟨b1, b2⟩, ⟨c1, c2⟩, hbu⟩ := parse_parts _ hd hp hp1 hp2
  have hall := master_parts hbu hm hm1 hm2
  refine ⟨p, hp, ?_⟩
  intro hint spec hspec hsrc
  rw [b1] at hs1
  rw [b2] at hs2
  rw [hint] at hs hs1 hs2
  have e0 : ([] : List (Except Err FEL)).mapM id = (.ok [] : Except Err (List FEL)) := rfl
  rw [e0] at hs hs1 hs2
  cases hs
  cases hs1
  cases hs2
  obtain ⟨i, hi⟩ := List.getElem?_of_mem hspec
  obtain ⟨d, q1, q2, -⟩ := hw i spec hi
  obtain ⟨d1, r1, r2, -⟩ := hw1 i spec (by rw [c1]; exact hi)
  obtain ⟨d2, t1, t2, -⟩ := hw2 i spec (by rw [c2]; exact hi)
  obtain ⟨ps, S, x1, x2⟩ := q2 hsrc
  obtain ⟨ps1, S1, y1, y2⟩ := r2 hsrc
  obtain ⟨ps2, S2, z1, z2⟩ := t2 hsrc
  rw [a1, b1] at y1
  rw [a2, b2] at z1
  refine ⟨d, d1, d2, by rw [hfs]; exact List.mem_append_right _ (List.mem_of_getElem? q1), by rw [hfs1]; exact List.mem_append_right _ (List.mem_of_getElem? r1),
    by rw [hfs2]; exact List.mem_append_right _ (List.mem_of_getElem? t1), ?_⟩
  have x3 := ((coupled_alone _ _ _ _ _ _).mp x1).1
  have y3 := ((coupled_alone _ _ _ _ _ _).mp y1).1
  have z3 := ((coupled_alone _ _ _ _ _ _).mp z1).1
  rw [hall, List.mapM_append, y3, z3] at x3
  simp only [bind, Except.bind, pure, Except.pure, Except.ok.injEq] at x3
  subst x3
  intro k hk
  obtain ⟨t, X, Fs, f1, f2, f3⟩ := x2 k hk
  obtain ⟨t', X', Gs, g1, g2, g3⟩ := y2 k hk
  obtain ⟨t'', X'', Hs, k1, k2, k3⟩ := z2 k hk
  rw [f1] at g1 k1
  cases g1
  cases k1
  rw [List.mapM_append, g2, k2] at f2
  simp only [bind, Except.bind, pure, Except.pure, Except.ok.injEq] at f2
  subst f2
  rw [List.sum_append] at f3
  exact ⟨X, Gs.sum, Hs.sum, f3, g3, k3⟩

/-- C125: without interactions, a watch point file of the beam holds the particles of the files of the parts, in the same state and in the same order. -/
theorem C125_watches (L : Lib) (rnd rnd1 rnd2 : Nat → (Nat → Nat → ℝ) × (Nat → Nat → Nat → ℝ)) (J J1 J2 : Indet) (nodes nodes1 nodes2 : Nat) (hN : 0 < nodes) (hN1 : 0 < nodes1) (hN2 : 0 < nodes2)
    (doc doc1 doc2 : Xml) (hd : InParts doc doc1 doc2) (fs fs1 fs2 : List OutFile) (h : L.program rnd J nodes doc = .ok fs) (h1 : L.program rnd1 J1 nodes1 doc1 = .ok fs1)
    (h2 : L.program rnd2 J2 nodes2 doc2 = .ok fs2) :
    ∃ p, (L.withRandom (rnd 0)).parse doc = .ok p ∧ (p.tracking.state.interactions = [] → ∀ x ∈ p.tracking.state.watches, 0 ≤ x.step → x.step ≤ p.tracking.NOTS →
      ∃ d d1 d2, (⟨x.filename, .watch d⟩ : OutFile) ∈ fs ∧ (⟨x.filename, .watch d1⟩ : OutFile) ∈ fs1 ∧ (⟨x.filename, .watch d2⟩ : OutFile) ∈ fs2 ∧ JoinedWatch d d1 d2) := by
  obtain ⟨p, m, s, hp, hm, hs, hw⟩ := C85_watches_coupled_partial L rnd J nodes hN doc fs h
  obtain ⟨p1, m1, s1, hp1, hm1, hs1, hw1⟩ := C85_watches_coupled_partial L rnd1 J1 nodes1 hN1 doc1 fs1 h1
  obtain ⟨p2, m2, s2, hp2, hm2, hs2, hw2⟩ := C85_watches_coupled_partial L rnd2 J2 nodes2 hN2 doc2 fs2 h2
  rw [(parts_random L hd (rnd1 0) (rnd 0)).1] at hp1
  rw [(parts_random L hd (rnd2 0) (rnd 0)).2] at hp2
  obtain ⟨⟨a1, a2⟩, ⟨b1, b2⟩, -, hbu⟩ := parse_parts _ hd hp hp1 hp2
  have hall := master_parts hbu hm hm1 hm2
  refine ⟨p, hp, ?_⟩
  intro hint x hx hx0 hx1
  rw [b1] at hs1
  rw [b2] at hs2
  rw [hint] at hs hs1 hs2
  have e0 : ([] : List (Except Err FEL)).mapM id = (.ok [] : Except Err (List FEL)) := rfl
  rw [e0] at hs hs1 hs2
  cases hs
  cases hs1
  cases hs2
  obtain ⟨d, ps, S, q1, x1, q3, q4⟩ := hw x hx hx0 hx1
  obtain ⟨d1, ps1, S1, r1, y1, r3, r4⟩ := hw1 x (by rw [b1]; exact hx) hx0 (by rw [b1]; exact hx1)
  obtain ⟨d2, ps2, S2, t1, z1, t3, t4⟩ := hw2 x (by rw [b2]; exact hx) hx0 (by rw [b2]; exact hx1)
  rw [a1, b1] at y1
  rw [a2, b2] at z1
  refine ⟨d, d1, d2, q1, r1, t1, ?_⟩
  have x3 := ((coupled_alone _ _ _ _ _ _).mp x1).1
  have y3 := ((coupled_alone _ _ _ _ _ _).mp y1).1
  have z3 := ((coupled_alone _ _ _ _ _ _).mp z1).1
  rw [hall, List.mapM_append, y3, z3] at x3
  simp only [bind, Except.bind, pure, Except.pure, Except.ok.injEq] at x3
  subst x3
  cases ht : x.type with
  | hdf5 =>
    rw [q3 ht, r3 ht, t3 ht, List.flatMap_append, List.length_append]
    exact .hdf5 _ _ _ _
  | sdds =>
    obtain ⟨rows, u1, u2⟩ := q4 ht
    obtain ⟨rows1, v1, v2⟩ := r4 ht
    obtain ⟨rows2, w1, w2⟩ := t4 ht
    have : rows = rows1 ++ rows2 := by
      have hj : List.Forall₂ _ (ps1 ++ ps2) (rows1 ++ rows2) := List.rel_append v2 w2
      generalize rows1 ++ rows2 = rows' at hj ⊢
      generalize ps1 ++ ps2 = l at u2 hj
      clear * - u2 hj
      induction u2 generalizing rows' with
      | nil => cases hj; rfl
      | cons hx _ ih =>
        cases hj with
        | cons hy hj => rw [row_unique hx hy, ih _ hj]
    rw [u1, v1, w1, this, hall, List.length_append, List.map_append, List.sum_append, mul_add]
    exact .sdds _ _ _ _ _ _

/-! ## Example: two particles together, and each of them alone -/

def partsDoc (beam : List Xml) : Xml :=
  .node "" [] [.node "teufel" []
    [.node "lattice" [] [.node "background" [] [.node "E" [("x", "1")] []]],
     .node "beam" [] beam,
     .node "tracking" [("method", "Vay"), ("delta_t", "_h"), ("n", "2")] [.node "watch-sdds" [("step", "1"), ("file", "early.sdds")] []],
     .node "observer" [] [.node "point" [("file", "point.sdds"), ("source", "beam")] [.node "position" [("x", "1")] [], .node "time" [("dt", "1"), ("n", "3")] []]]]]

noncomputable def partsParsed (bunches : List (Except Err Bunch)) : Parsed :=
  ⟨⟨predefined, [HomogeneousField ⟨1, 0, 0⟩ 0], 1⟩, ⟨predefined, bunches, [], none, bunches.length⟩,
    ⟨6.62607015e-34, 2, ⟨predefined, [⟨1, "early.sdds", .sdds⟩], []⟩⟩, ⟨predefined, [⟨.point (PointObs.new ⟨1, 0, 0⟩ 0 1 3), .beam, "point.sdds"⟩]⟩⟩

theorem partsDoc_parts : InParts (partsDoc [sharesEntry "1", sharesEntry "2"]) (partsDoc [sharesEntry "1"]) (partsDoc [sharesEntry "2"]) := by
  refine ⟨_, _, _, [.node "lattice" [] [.node "background" [] [.node "E" [("x", "1")] []]]], _, [], [], [], [sharesEntry "1"], [sharesEntry "2"], rfl, rfl, rfl, rfl, rfl, rfl, ?_, ?_⟩
  · simp [Xml.name]
  · intro e he
    have : ∀ c, PlainEntry (sharesEntry c) := fun c => ⟨Or.inl rfl, by simp [sharesEntry, Xml.children, Xml.name]⟩
    simp only [List.cons_append, List.nil_append, List.mem_cons, List.not_mem_nil, or_false] at he
    rcases he with rfl | rfl <;> exact this _

theorem partsDoc_parse (r : (Nat → Nat → ℝ) × (Nat → Nat → Nat → ℝ)) (l : List String) (qs : List ℝ) (hl : (l = ["1", "2"] ∧ qs = [1, 2]) ∨ (l = ["1"] ∧ qs = [1]) ∨ (l = ["2"] ∧ qs = [2])) :
    (exampleLib.withRandom r).parse (partsDoc (l.map sharesEntry)) = .ok (partsParsed (qs.map (fun q => singleParticle 2 q 1 0 ⟨0, 0, 0⟩ ⟨0, 0, 1⟩))) := by
  have hc : ∀ env node, (∀ c ∈ node.children, c.name ≠ "calc") → (exampleLib.withRandom r).parseCalcChildren env node = env := by
    intro env node hn
    unfold parseCalcChildren
    generalize node.children = l at hn
    induction l generalizing env with
    | nil => rfl
    | cons c l ih =>
      rw [List.foldl_cons, if_neg (hn c (by simp))]
      exact ih env (fun c' hc' => hn c' (by simp [hc']))
  have e0 : ∀ env, (exampleLib.withRandom r).eval env "" = env "" := by intro env; simp [withRandom, exampleLib]
  have e1 : ∀ env, (exampleLib.withRandom r).eval env "1" = some 1 := by intro env; simp [withRandom, exampleLib]
  have e2 : ∀ env, (exampleLib.withRandom r).eval env "2" = some 2 := by intro env; simp [withRandom, exampleLib]
  have e3 : (exampleLib.withRandom r).asInt "3" = 3 := by simp [withRandom, exampleLib]
  have e4 : (exampleLib.withRandom r).eval predefined "_h" = some 6.62607015e-34 := by simp [withRandom, exampleLib, predefined]
  have hpe := predefined_empty
  have h1 : toInt32 (crint 1) = .ok 1 := by simp [crint, toInt32]
  have h2 : toInt32 (crint 2) = .ok 2 := by simp [crint, toInt32]
  unfold parse partsDoc
  simp only [Xml.child, Xml.children, Xml.name, List.find?, need, bind, Except.bind, pure, Except.pure, start, beq_self_eq_true]
  rw [hc _ _ (by simp [Xml.children, Xml.name])]
  simp only [parseLattice, parseBeam, parseTracking, parseObservers, Xml.child, Xml.children, Xml.name, List.find?, need, bind, Except.bind, pure, Except.pure]
  have p1 : (exampleLib.withRandom r).latticeStep ⟨predefined, [], 0⟩ (.node "background" [] [.node "E" [("x", "1")] []]) = .ok ⟨predefined, [HomogeneousField ⟨1, 0, 0⟩ 0], 1⟩ := by
    simp [latticeStep, latticeElement, Xml.name, parseCalcChildren, Xml.children, Except.map, Lattice.addElement, optVec, Xml.child, vec, num, Xml.value, Xml.attr, Xml.attrs, e0, e1, hpe]
  have p2 : ∀ bs n, (exampleLib.withRandom r).beamStep ⟨predefined, bs, [], none, n⟩ (sharesEntry "1") = .ok ⟨predefined, bs ++ [singleParticle 2 1 1 0 ⟨0, 0, 0⟩ ⟨0, 0, 1⟩], [], none, n + 1⟩ := by
    intro bs n
    simp [sharesEntry, beamStep, particleEntry, Xml.name, parseCalcChildren, Xml.children, Xml.child, need, bind, Except.bind, pure, Except.pure, parseLog, optNum, vec, num, Xml.value, Xml.attr, Xml.attrs, e0, e1, e2, hpe, List.lookup]
  have p3 : ∀ bs n, (exampleLib.withRandom r).beamStep ⟨predefined, bs, [], none, n⟩ (sharesEntry "2") = .ok ⟨predefined, bs ++ [singleParticle 2 2 1 0 ⟨0, 0, 0⟩ ⟨0, 0, 1⟩], [], none, n + 1⟩ := by
    intro bs n
    simp [sharesEntry, beamStep, particleEntry, Xml.name, parseCalcChildren, Xml.children, Xml.child, need, bind, Except.bind, pure, Except.pure, parseLog, optNum, vec, num, Xml.value, Xml.attr, Xml.attrs, e0, e1, e2, hpe, List.lookup]
  have p5 : ∀ t ws, (exampleLib.withRandom r).trackStep t ⟨predefined, ws, []⟩ (.node "watch-sdds" [("step", "1"), ("file", "early.sdds")] []) = .ok ⟨predefined, ws ++ [⟨1, "early.sdds", .sdds⟩], []⟩ := by
    intro t ws
    simp [trackStep, watchEntry, Xml.name, need, bind, Except.bind, pure, Except.pure, int, num, Xml.value, Xml.attr, Xml.attrs, e1, h1, List.lookup]
  have p4 : (exampleLib.withRandom r).observerStep ⟨predefined, []⟩ (.node "point" [("file", "point.sdds"), ("source", "beam")] [.node "position" [("x", "1")] [], .node "time" [("dt", "1"), ("n", "3")] []])
      = .ok ⟨predefined, [⟨.point (PointObs.new ⟨1, 0, 0⟩ 0 1 3), .beam, "point.sdds"⟩]⟩ := by
    have hsrc : source (.node "point" [("file", "point.sdds"), ("source", "beam")] [.node "position" [("x", "1")] [], .node "time" [("dt", "1"), ("n", "3")] []]) = .ok .beam := by
      simp [source, Xml.attr, Xml.attrs, List.lookup]
    simp [observerStep, observerEntry, pointEntry, Xml.name, parseCalcChildren, Xml.children, Xml.child, need, bind, Except.bind, pure, Except.pure, hsrc, points, Except.map, vec, num, Xml.value, Xml.attr, Xml.attrs, e0, e1, e3, hpe, List.lookup]
  rcases hl with ⟨rfl, rfl⟩ | ⟨rfl, rfl⟩ | ⟨rfl, rfl⟩ <;>
  · simp [p1, p2, p3, Xml.value, Xml.attr, Xml.attrs, List.lookup, int, num, e1, e2, e4, h2, partsParsed]
    simp [pure, Except.pure, bind, Except.bind, p2, p3, p4, p5]
    try rw [e4]
    try rfl

theorem partsParsed_master (qs : List ℝ) (h : ∀ q ∈ qs, q ≠ 0) :
    ∃ m, masterBeam (partsParsed (qs.map (fun q => singleParticle 2 q 1 0 ⟨0, 0, 0⟩ ⟨0, 0, 1⟩))) = .ok m ∧ m.all = qs.map sharesParticle := by
  have e : (qs.map (fun q => singleParticle 2 q 1 0 ⟨0, 0, 0⟩ ⟨0, 0, 1⟩)).mapM id = .ok (qs.map (fun q => Bunch.empty.Add (sharesParticle q))) := by
    induction qs with
    | nil => rfl
    | cons q qs ih =>
      rw [List.map_cons, List.mapM_cons, ih (fun q hq => h q (by simp [hq])), sharesParticle_single (h q (by simp))]
      rfl
  refine ⟨_, by simp only [masterBeam, partsParsed, e, bind, Except.bind]; rfl, ?_⟩
  have g : ∀ (l : List ℝ) (b : Beam), ((l.map (fun q => Bunch.empty.Add (sharesParticle q))).foldl Beam.Add b).all = b.all ++ l.map sharesParticle := by
    intro l
    induction l with
    | nil => intro b; simp
    | cons q l ih =>
      intro b
      rw [List.map_cons, List.foldl_cons, ih]
      simp [Beam.all, Beam.Add, Bunch.Add, Bunch.empty]
  exact g qs Beam.empty

theorem partsDoc_runs (rnd : Nat → (Nat → Nat → ℝ) × (Nat → Nat → Nat → ℝ)) (J : Indet) (nodes : Nat) (hN : 0 < nodes) (doc : Xml) (qs : List ℝ) (h : ∀ q ∈ qs, q ≠ 0)
    (hp : (exampleLib.withRandom (rnd 0)).parse doc = .ok (partsParsed (qs.map (fun q => singleParticle 2 q 1 0 ⟨0, 0, 0⟩ ⟨0, 0, 1⟩)))) :
    ∃ fs, exampleLib.program rnd J nodes doc = .ok fs := by
  obtain ⟨m, hm, hall⟩ := partsParsed_master qs h
  refine C86_without_interactions exampleLib rnd J nodes hN doc _ m hp hm (by simp [partsParsed]) (fun t X => ⟨_, rfl⟩) ?_ (by simp [partsParsed]) (by simp [partsParsed]) ?_ rfl
  · intro q hq
    rw [hall, List.mem_map] at hq
    obtain ⟨c, hc, rfl⟩ := hq
    exact div_ne_zero (h c hc) (by norm_num [ElementaryCharge])
  · intro spec hspec
    simp only [partsParsed, List.mem_singleton] at hspec
    subst hspec
    refine ⟨⟨by simp [Observer.keys, PointObs.new, FieldTrace.new], by intro s hs; cases hs⟩, fun _ => ⟨by norm_num [partsParsed], by show (0 : ℝ) < 1; norm_num, ?_⟩⟩
    intro q hq a ha
    rw [hall, List.mem_map] at hq
    obtain ⟨c, hc, rfl⟩ := hq
    have hreach : (sharesParticle c).Reachable := ⟨_, [.init 0 ⟨0, 0, 0⟩ _ 0], Or.inl ⟨_, _, rfl⟩, rfl⟩
    refine clear_far (by intro s hs; cases hs) hreach (by norm_num [partsParsed]) (alone_moved ha) ?_
    intro key _ t X hX
    have hX' : X = ⟨1, 0, 0⟩ := by
      injection hX with hX
      exact (congrArg Prod.snd hX).symm
    have h0 : (sharesParticle c).XCur = ⟨0, 0, 0⟩ := rfl
    have hn : ∀ b, (partsParsed b).tracking.NOTS.toNat = 2 := fun _ => rfl
    rw [hX', h0, hn]
    have : Vec.norm ((⟨1, 0, 0⟩ : Vec) - ⟨0, 0, 0⟩) = 1 := by simp [Vec.norm]
    rw [this]
    norm_num [partsParsed, SpeedOfLight]

/-- non-vacuity of C125: two particles on five nodes, and each of them on another number of nodes -/
example (rnd rnd1 rnd2 : Nat → (Nat → Nat → ℝ) × (Nat → Nat → Nat → ℝ)) (J J1 J2 : Indet) :
    ∃ fs fs1 fs2 d d1 d2 w w1 w2, exampleLib.program rnd J 5 (partsDoc [sharesEntry "1", sharesEntry "2"]) = .ok fs ∧ exampleLib.program rnd1 J1 3 (partsDoc [sharesEntry "1"]) = .ok fs1 ∧
      exampleLib.program rnd2 J2 1 (partsDoc [sharesEntry "2"]) = .ok fs2 ∧
      (⟨"point.sdds", d⟩ : OutFile) ∈ fs ∧ (⟨"point.sdds", d1⟩ : OutFile) ∈ fs1 ∧ (⟨"point.sdds", d2⟩ : OutFile) ∈ fs2 ∧
      (∀ k < 3, ∃ X F1 F2, Shows (.point (PointObs.new ⟨1, 0, 0⟩ 0 1 3)) d ((0, 0), k) X (F1 + F2) ∧ Shows (.point (PointObs.new ⟨1, 0, 0⟩ 0 1 3)) d1 ((0, 0), k) X F1 ∧
        Shows (.point (PointObs.new ⟨1, 0, 0⟩ 0 1 3)) d2 ((0, 0), k) X F2) ∧
      (⟨"early.sdds", .watch w⟩ : OutFile) ∈ fs ∧ (⟨"early.sdds", .watch w1⟩ : OutFile) ∈ fs1 ∧ (⟨"early.sdds", .watch w2⟩ : OutFile) ∈ fs2 ∧ JoinedWatch w w1 w2 := by
  have hp := fun r => partsDoc_parse r ["1", "2"] [1, 2] (Or.inl ⟨rfl, rfl⟩)
  have hp1 := fun r => partsDoc_parse r ["1"] [1] (Or.inr (Or.inl ⟨rfl, rfl⟩))
  have hp2 := fun r => partsDoc_parse r ["2"] [2] (Or.inr (Or.inr ⟨rfl, rfl⟩))
  obtain ⟨fs, h⟩ := partsDoc_runs rnd J 5 (by norm_num) _ [1, 2] (by norm_num) (hp _)
  obtain ⟨fs1, h1⟩ := partsDoc_runs rnd1 J1 3 (by norm_num) _ [1] (by norm_num) (hp1 _)
  obtain ⟨fs2, h2⟩ := partsDoc_runs rnd2 J2 1 (by norm_num) _ [2] (by norm_num) (hp2 _)
  obtain ⟨p, g1, g2⟩ := C125_radiation exampleLib rnd rnd1 rnd2 J J1 J2 5 3 1 (by norm_num) (by norm_num) (by norm_num) _ _ _ partsDoc_parts fs fs1 fs2 h h1 h2
  obtain ⟨q, k1, k2⟩ := C125_watches exampleLib rnd rnd1 rnd2 J J1 J2 5 3 1 (by norm_num) (by norm_num) (by norm_num) _ _ _ partsDoc_parts fs fs1 fs2 h h1 h2
  have hp0 := hp (rnd 0)
  simp only [List.map_cons, List.map_nil] at hp0
  rw [hp0] at g1 k1
  cases g1
  cases k1
  obtain ⟨d, d1, d2, f1, f2, f3, f4⟩ := g2 rfl ⟨.point (PointObs.new ⟨1, 0, 0⟩ 0 1 3), .beam, "point.sdds"⟩ (by simp [partsParsed]) rfl
  obtain ⟨w, w1, w2, v1, v2, v3, v4⟩ := k2 rfl ⟨1, "early.sdds", .sdds⟩ (by simp [partsParsed]) (by norm_num) (by simp [partsParsed])
  refine ⟨fs, fs1, fs2, d, d1, d2, w, w1, w2, h, h1, h2, f1, f2, f3, ?_, v1, v2, v3, v4⟩
  intro k hk
  exact f4 ((0, 0), k) (by simp [Observer.keys, PointObs.new, FieldTrace.new, hk])

end Lib
end Teufel
