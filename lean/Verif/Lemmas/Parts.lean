import Verif.Spec.Parts
import Verif.Lemmas.Moved

/-! # Lemmas on beams in parts -/

namespace Teufel

namespace Lib
variable (L : Lib)

theorem calcChildren_none (env : Env) (node : Xml) (h : ∀ c ∈ node.children, c.name ≠ "calc") : L.parseCalcChildren env node = env := by
  unfold parseCalcChildren
  generalize node.children = l at h
  induction l generalizing env with
  | nil => rfl
  | cons c l ih =>
    rw [List.foldl_cons, if_neg (h c (by simp))]
    exact ih env (fun c' hc' => h c' (by simp [hc']))

theorem child_mem {e c : Xml} {n : String} (h : e.child n = some c) : c ∈ e.children := List.mem_of_find?_eq_some h

/-- the definitions and the particles of a plain entry do not depend on the entries before it -/
theorem step_plain {e : Xml} (he : PlainEntry e) {s s' r r' : BeamState} (hs : s'.env = s.env) (h : L.beamStep s e = .ok r) (h' : L.beamStep s' e = .ok r') :
    r.env = s.env ∧ r'.env = s.env ∧ ∃ b, r.bunches = s.bunches ++ b ∧ r'.bunches = s'.bunches ++ b := by
  obtain ⟨hn, hc⟩ := he
  have hself : ∀ env, L.parseCalcChildren env e = env := fun env => L.calcChildren_none env e (fun c h => (hc c h).1)
  have hchild : ∀ env n c, e.child n = some c → L.parseCalcChildren env c = env := fun env n c h => L.calcChildren_none env c ((hc c (child_mem h)).2)
  unfold beamStep at h h'
  rcases hn with hn | hn | hn
  · rw [if_neg (by rw [hn]; decide), if_pos hn] at h h'
    unfold particleEntry at h h'
    simp only [need, bind, Except.bind, pure, Except.pure, hself, hs] at h h'
    cases h1 : e.child "position" with
    | none => rw [h1] at h; cases h
    | some pos =>
    cases h2 : e.child "momentum" with
    | none => rw [h1, h2] at h; cases h
    | some mom =>
    rw [h1, h2] at h h'
    simp only at h h'
    split at h
    · cases h
    split at h'
    · cases h'
    simp only [Except.ok.injEq] at h h'
    subst h
    subst h'
    exact ⟨rfl, rfl, _, rfl, rfl⟩
  · rw [if_neg (by rw [hn]; decide), if_neg (by rw [hn]; decide), if_neg (by rw [hn]; decide), if_pos hn] at h h'
    have hopt : ∀ env, L.optCalc env (e.child "dir") = env := by
      intro env
      unfold optCalc
      cases hd : e.child "dir" with
      | none => rfl
      | some d => exact hchild env _ d hd
    unfold sddsEntryNode at h h'
    simp only [need, bind, Except.bind, pure, Except.pure, hopt, hs] at h h'
    have hcor : ∀ env r, L.parseCorrelations env e = .ok r → r.1 = env := by
      intro env r hr
      unfold parseCorrelations at hr
      cases hd : e.child "correlations" with
      | none => rw [hd] at hr; injection hr with hr; rw [← hr]
      | some d =>
        rw [hd] at hr
        simp only [bind, Except.bind, pure, Except.pure] at hr
        split at hr
        · cases hr
        · injection hr with hr
          rw [← hr]
          exact hchild env _ d hd
    cases h1 : e.attr "file" with
    | none => rw [h1] at h; cases h
    | some fn =>
    rw [h1] at h h'
    simp only at h h'
    cases h2 : L.parseCorrelations s.env e with
    | error x => rw [h2] at h; cases h
    | ok c =>
    rw [h2] at h h'
    have hc1 := hcor _ _ h2
    simp only at h h'
    split at h
    · cases h
    split at h'
    · cases h'
    simp only [Except.ok.injEq] at h h'
    subst h
    subst h'
    exact ⟨hc1, hc1, _, rfl, rfl⟩
  · rw [if_neg (by rw [hn]; decide), if_neg (by rw [hn]; decide), if_neg (by rw [hn]; decide), if_neg (by rw [hn]; decide), if_pos hn] at h h'
    unfold probeEntry at h h'
    simp only [need, bind, Except.bind, pure, Except.pure] at h h'
    split at h
    · cases h
    split at h'
    · cases h'
    simp only [Except.ok.injEq] at h h'
    subst h
    subst h'
    exact ⟨rfl, hs, [], by simp, by simp⟩

theorem fold_plain {l : List Xml} (hl : ∀ e ∈ l, PlainEntry e) {s s' r r' : BeamState} (hs : s'.env = s.env) (h : l.foldlM L.beamStep s = .ok r) (h' : l.foldlM L.beamStep s' = .ok r') :
    r.env = s.env ∧ r'.env = s.env ∧ ∃ b, r.bunches = s.bunches ++ b ∧ r'.bunches = s'.bunches ++ b := by
  induction l generalizing s s' with
  | nil =>
    cases h
    cases h'
    exact ⟨rfl, hs, [], by simp, by simp⟩
  | cons e l ih =>
    rw [List.foldlM_cons] at h h'
    cases h1 : L.beamStep s e with
    | error x => rw [h1] at h; cases h
    | ok t =>
    cases h2 : L.beamStep s' e with
    | error x => rw [h2] at h'; cases h'
    | ok t' =>
    rw [h1] at h
    rw [h2] at h'
    obtain ⟨a1, a2, b, b1, b2⟩ := L.step_plain (hl e (by simp)) hs h1 h2
    obtain ⟨c1, c2, b', b3, b4⟩ := ih (fun e he => hl e (by simp [he])) (a2.trans a1.symm) h h'
    exact ⟨c1.trans a1, c2.trans a1, b ++ b', by rw [b3, b1, List.append_assoc], by rw [b4, b2, List.append_assoc]⟩

/-- what is read from three such files -/
theorem parse_parts {doc doc1 doc2 : Xml} (h : InParts doc doc1 doc2) {p p1 p2 : Parsed} (hp : L.parse doc = .ok p) (hp1 : L.parse doc1 = .ok p1) (hp2 : L.parse doc2 = .ok p2) :
    (p1.lattice = p.lattice ∧ p2.lattice = p.lattice) ∧ (p1.tracking = p.tracking ∧ p2.tracking = p.tracking) ∧ (p1.observers = p.observers ∧ p2.observers = p.observers) ∧
      p.beam.bunches = p1.beam.bunches ++ p2.beam.bunches := by
  obtain ⟨root, root1, root2, before, after, attrs, attrs1, attrs2, l1, l2, d, d1, d2, c, c1, c2, hb, hpl⟩ := h
  have hother : ∀ (r : Xml) a l (hr : r.children = before ++ .node "beam" a l :: after) n, n ≠ "beam" → r.child n = (before ++ after).find? (fun c => c.name == n) := by
    intro r a l hr n hn
    have hne : (Xml.node "beam" a l).name ≠ n := fun h => hn h.symm
    unfold Xml.child
    rw [hr, List.find?_append, List.find?_append, List.find?_cons]
    have : ((Xml.node "beam" a l).name == n) = false := by simpa using hne
    rw [this]
  have hbeam : ∀ (r : Xml) a l (hr : r.children = before ++ .node "beam" a l :: after), r.child "beam" = some (.node "beam" a l) := by
    intro r a l hr
    unfold Xml.child
    rw [hr, List.find?_append]
    have : before.find? (fun c => c.name == "beam") = none := by
      rw [List.find?_eq_none]
      intro x hx
      simpa using hb x hx
    rw [this]
    rfl
  have hstart : ∀ (r : Xml) a l (hr : r.children = before ++ .node "beam" a l :: after), L.start r = (before ++ after).foldl (fun e c => if c.name = "calc" then L.parseCalc e c else e) Lib.predefined := by
    intro r a l hr
    unfold start parseCalcChildren
    rw [hr, List.foldl_append, List.foldl_append, List.foldl_cons, if_neg (by show "beam" ≠ "calc"; decide)]
  have hs1 : L.start root1 = L.start root := by rw [hstart _ _ _ c1, hstart _ _ _ c]
  have hs2 : L.start root2 = L.start root := by rw [hstart _ _ _ c2, hstart _ _ _ c]
  have hl1 : ∀ e x, L.parseLattice root1 e x = L.parseLattice root e x := by intro e x; unfold parseLattice; rw [hother _ _ _ c1 _ (by decide), hother _ _ _ c _ (by decide)]
  have hl2 : ∀ e x, L.parseLattice root2 e x = L.parseLattice root e x := by intro e x; unfold parseLattice; rw [hother _ _ _ c2 _ (by decide), hother _ _ _ c _ (by decide)]
  have ht1 : ∀ e, L.parseTracking root1 e = L.parseTracking root e := by intro e; unfold parseTracking; rw [hother _ _ _ c1 _ (by decide), hother _ _ _ c _ (by decide)]
  have ht2 : ∀ e, L.parseTracking root2 e = L.parseTracking root e := by intro e; unfold parseTracking; rw [hother _ _ _ c2 _ (by decide), hother _ _ _ c _ (by decide)]
  have ho1 : ∀ e, L.parseObservers root1 e = L.parseObservers root e := by intro e; unfold parseObservers; rw [hother _ _ _ c1 _ (by decide), hother _ _ _ c _ (by decide)]
  have ho2 : ∀ e, L.parseObservers root2 e = L.parseObservers root e := by intro e; unfold parseObservers; rw [hother _ _ _ c2 _ (by decide), hother _ _ _ c _ (by decide)]
  unfold parse at hp hp1 hp2
  rw [d] at hp
  rw [d1] at hp1
  rw [d2] at hp2
  simp only [need, bind, Except.bind, pure, Except.pure, hs1, hs2, hl1, hl2, ht1, ht2, ho1, ho2] at hp hp1 hp2
  cases ha : L.parseLattice root (L.start root) [] with
  | error e => rw [ha] at hp; cases hp
  | ok lat =>
  rw [ha] at hp hp1 hp2
  simp only at hp hp1 hp2
  cases hb0 : L.parseBeam root lat.env with
  | error e => rw [hb0] at hp; cases hp
  | ok be =>
  cases hb1 : L.parseBeam root1 lat.env with
  | error e => rw [hb1] at hp1; cases hp1
  | ok be1 =>
  cases hb2 : L.parseBeam root2 lat.env with
  | error e => rw [hb2] at hp2; cases hp2
  | ok be2 =>
  rw [hb0] at hp
  rw [hb1] at hp1
  rw [hb2] at hp2
  unfold parseBeam at hb0 hb1 hb2
  rw [hbeam _ _ _ c] at hb0
  rw [hbeam _ _ _ c1] at hb1
  rw [hbeam _ _ _ c2] at hb2
  simp only [need, bind, Except.bind, Xml.children] at hb0 hb1 hb2
  rw [List.foldlM_append, hb1] at hb0
  have hb0' : l2.foldlM L.beamStep be1 = .ok be := hb0
  obtain ⟨e1, -⟩ := L.fold_plain (fun e he => hpl e (by simp [he])) rfl hb1 hb1
  obtain ⟨e2, e3, b, b1, b2⟩ := L.fold_plain (fun e he => hpl e (by simp [he])) (s := ⟨lat.env, [], [], none, 0⟩) e1 hb2 hb0'
  simp only [List.nil_append] at b1 e1 e2 e3
  simp only [e1, e2, e3] at hp hp1 hp2
  cases ht : L.parseTracking root lat.env with
  | error e => rw [ht] at hp; cases hp
  | ok tr =>
  rw [ht] at hp hp1 hp2
  simp only at hp hp1 hp2
  cases ho : L.parseObservers root tr.state.env with
  | error e => rw [ho] at hp; cases hp
  | ok ob =>
  rw [ho] at hp hp1 hp2
  simp only [Except.ok.injEq] at hp hp1 hp2
  subst hp hp1 hp2
  exact ⟨⟨rfl, rfl⟩, ⟨rfl, rfl⟩, ⟨rfl, rfl⟩, by rw [b2, b1]⟩

/-- the beam consists of the particles of both parts, in this order -/
theorem master_parts {p p1 p2 : Parsed} (h : p.beam.bunches = p1.beam.bunches ++ p2.beam.bunches) {m m1 m2 : Beam} (hm : masterBeam p = .ok m) (hm1 : masterBeam p1 = .ok m1)
    (hm2 : masterBeam p2 = .ok m2) : m.all = m1.all ++ m2.all := by
  have hadd : ∀ (bs : List Bunch) (b : Beam), (bs.foldl Beam.Add b).B = b.B ++ bs := by
    intro bs
    induction bs with
    | nil => intro b; simp
    | cons x bs ih => intro b; rw [List.foldl_cons, ih]; simp [Beam.Add]
  unfold masterBeam at hm hm1 hm2
  cases h1 : p1.beam.bunches.mapM id with
  | error e => rw [h1] at hm1; cases hm1
  | ok b1 =>
  cases h2 : p2.beam.bunches.mapM id with
  | error e => rw [h2] at hm2; cases hm2
  | ok b2 =>
  rw [h, List.mapM_append, h1, h2] at hm
  rw [h1] at hm1
  rw [h2] at hm2
  simp only [bind, Except.bind, pure, Except.pure, Except.ok.injEq] at hm hm1 hm2
  subst hm hm1 hm2
  simp [Beam.all, hadd, Beam.empty]

end Lib
end Teufel
