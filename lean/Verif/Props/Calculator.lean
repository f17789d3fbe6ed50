import Verif.Props.InputObservers

/-!
# C61, C75: the calculator
-/

namespace Teufel
namespace Input

theorem after_concat (L : Lib) (env : Env) (ds : List (String × String)) (d) : after L env (ds ++ [d]) = defined L (after L env ds) d := by
  simp [after]

theorem defined_of_effective {L : Lib} {env : Env} {d v} (h : Effective L env d v) : defined L env d d.1 = some v := by
  obtain ⟨h1, h2, h3⟩ := h
  simp [defined, h1, h2, h3]

theorem defined_of_other (L : Lib) (env : Env) (d : String × String) (n : String) (h : n ≠ d.1) : defined L env d n = env n := by
  unfold defined
  cases L.eval env d.2 <;> simp [h]

theorem defined_of_ineffective {L : Lib} {env : Env} {d : String × String} (h : ∀ v, ¬Effective L env d v) : defined L env d = env := by
  funext n
  unfold defined
  cases he : L.eval env d.2 with
  | none => rfl
  | some v =>
    dsimp only
    rw [if_neg]
    rintro ⟨_, h1, h2⟩
    exact h v ⟨h1, h2, he⟩

/-- **C61** (value): a variable has the value given by the last definition of it that succeeded; each equation is evaluated
with the constants known at that point. -/
theorem C61_value (L : Lib) (env : Env) (ds : List (String × String)) (n : String) (v : ℝ) :
    after L env ds n = some v ↔
      (∃ pre eq post, ds = pre ++ (n, eq) :: post ∧ Effective L (after L env pre) (n, eq) v ∧
        ∀ pre' eq' post', post = pre' ++ (n, eq') :: post' → ∀ w, ¬Effective L (after L env (pre ++ (n, eq) :: pre')) (n, eq') w) ∨
      (env n = some v ∧ ∀ pre eq post, ds = pre ++ (n, eq) :: post → ∀ w, ¬Effective L (after L env pre) (n, eq) w) := by
  induction ds using List.reverseRecOn with
  | nil =>
    constructor
    · intro h
      exact .inr ⟨h, fun pre eq post he => by simp at he⟩
    · rintro (⟨pre, eq, post, he, _⟩ | ⟨h, _⟩)
      · simp at he
      · exact h
  | append_singleton ds d ih =>
    rw [after_concat]
    by_cases hd : d.1 = n ∧ ∃ w, Effective L (after L env ds) d w
    · obtain ⟨rfl, w, hw⟩ := hd
      rw [defined_of_effective hw]
      constructor
      · intro h
        cases h
        exact .inl ⟨ds, d.2, [], rfl, hw, fun pre' eq' post' he => by simp at he⟩
      · rintro (⟨pre, eq, post, he, hv, hl⟩ | ⟨h, hl⟩)
        · rcases List.eq_nil_or_concat post with rfl | ⟨p', x, rfl⟩
          · obtain ⟨rfl, h2⟩ := List.append_inj' he rfl
            obtain rfl : d.2 = eq := congrArg Prod.snd (List.singleton_inj.1 h2)
            exact congrArg some (Option.some.inj (hw.2.2.symm.trans hv.2.2))
          · have he' : ds ++ [d] = (pre ++ (d.1, eq) :: p') ++ [x] := by rw [he]; simp
            obtain ⟨rfl, h2⟩ := List.append_inj' he' rfl
            cases h2
            exact absurd hw (hl p' d.2 [] (by simp) w)
        · exact absurd hw (hl ds d.2 [] rfl w)
    · have hn : defined L (after L env ds) d n = after L env ds n := by
        by_cases h1 : n = d.1
        · subst h1
          rw [defined_of_ineffective]
          exact fun w hw => hd ⟨rfl, w, hw⟩
        · exact defined_of_other _ _ _ _ h1
      rw [hn, ih]
      constructor
      · rintro (⟨pre, eq, post, rfl, hv, hl⟩ | ⟨h, hl⟩)
        · refine .inl ⟨pre, eq, post ++ [d], by simp, hv, ?_⟩
          intro pre' eq' post' he w hw
          rcases List.eq_nil_or_concat post' with rfl | ⟨p', x, rfl⟩
          · obtain ⟨rfl, h2⟩ := List.append_inj' he rfl
            cases h2
            exact hd ⟨rfl, w, hw⟩
          · have he' : post ++ [d] = (pre' ++ (n, eq') :: p') ++ [x] := by rw [he]; simp
            obtain ⟨rfl, -⟩ := List.append_inj' he' rfl
            exact hl pre' eq' p' rfl w hw
        · refine .inr ⟨h, ?_⟩
          intro pre eq post he w hw
          rcases List.eq_nil_or_concat post with rfl | ⟨p', x, rfl⟩
          · obtain ⟨rfl, h2⟩ := List.append_inj' he rfl
            cases h2
            exact hd ⟨rfl, w, hw⟩
          · have he' : ds ++ [d] = (pre ++ (n, eq) :: p') ++ [x] := by rw [he]; simp
            obtain ⟨rfl, -⟩ := List.append_inj' he' rfl
            exact hl pre eq p' rfl w hw
      · rintro (⟨pre, eq, post, he, hv, hl⟩ | ⟨h, hl⟩)
        · rcases List.eq_nil_or_concat post with rfl | ⟨p', x, rfl⟩
          · obtain ⟨rfl, h2⟩ := List.append_inj' he rfl
            cases h2
            exact absurd ⟨rfl, v, hv⟩ hd
          · have he' : ds ++ [d] = (pre ++ (n, eq) :: p') ++ [x] := by rw [he]; simp
            obtain ⟨rfl, -⟩ := List.append_inj' he' rfl
            exact .inl ⟨pre, eq, p', rfl, hv, fun pre' eq' post' h w => hl pre' eq' (post' ++ [x]) (by rw [h]; simp) w⟩
        · exact .inr ⟨h, fun pre eq post h w => hl pre eq (post ++ [d]) (by rw [h]; simp) w⟩

/-- **C61** (failing expressions): an attribute with an expression that cannot be evaluated counts as 0, a definition with such an expression
has no effect. -/
theorem C61_failing (L : Lib) (env : Env) (el : Xml) (a n : String) (h : L.eval env (el.value a) = none) :
    L.num env el a = 0 ∧ L.int env el a = .ok 0 ∧ defined L env (n, el.value a) = env := by
  refine ⟨by simp [Lib.num, h], by simp [Lib.int, h], ?_⟩
  apply defined_of_ineffective
  rintro v ⟨_, _, hv⟩
  rw [h] at hv
  cases hv

theorem afterChild_eq (L : Lib) (env : Env) (el : Xml) (n : String) : afterChild L env el n = after L env (childDefinitions el n) := by
  unfold afterChild childDefinitions
  cases el.child n <;> rfl

theorem history_cons_calc (inside) (el : Xml) (els) (h : el.name = "calc") :
    history inside (el :: els) = (el.value "var", el.value "eq") :: history inside els := by
  simp [history, h]

theorem history_cons (inside) (el : Xml) (els) (h : el.name ≠ "calc") : history inside (el :: els) = inside el ++ history inside els := by
  simp [history, h]

theorem after_cons (L : Lib) (env : Env) (d) (ds) : after L env (d :: ds) = after L (defined L env d) ds := rfl

theorem lattice_history {L : Lib} {env env' : Env} {els fs} (h : ReadsLattice L env els env' fs) :
    env' = after L env (history latticeHistory els) := by
  induction h with
  | done => rfl
  | definition hn _ ih => rw [history_cons_calc _ _ _ hn, after_cons, ih]
  | element hn _ _ ih => rw [history_cons _ _ _ hn, after_append, ih]

theorem entry_history {L : Lib} {env env' : Env} {k el bs ls ps} (h : ReadsEntry L env k el env' bs ls ps) :
    env' = after L env (beamHistory el) := by
  unfold beamHistory
  cases h with
  | particle hn he => rw [if_pos hn, he]
  | bunch hn h1 hp h2 hm h3 =>
    rw [if_neg (by rw [hn]; simp), if_pos hn, h3, h2, h1, afterChild_eq, after_append, after_append, after_append]
    simp [childDefinitions, hp, hm]
  | sdds hn _ h1 => rw [if_neg (by rw [hn]; simp), if_neg (by rw [hn]; simp), if_pos hn, h1, afterChild_eq]
  | probe hn => rw [if_neg (by rw [hn]; simp), if_neg (by rw [hn]; simp), if_neg (by rw [hn]; simp)]; rfl

theorem beam_history {L : Lib} {env env' : Env} {k els bs ls ps} (h : ReadsBeam L env k els env' bs ls ps) :
    env' = after L env (history beamHistory els) := by
  induction h with
  | done => rfl
  | definition hn _ ih => rw [history_cons_calc _ _ _ hn, after_cons, ih]
  | entry hn he _ ih => rw [history_cons _ _ _ hn, after_append, ih, entry_history he]

theorem tracking_history {L : Lib} {track : Xml} {env env' : Env} {els ws fs} (h : ReadsTracking L track env els env' ws fs) :
    env' = after L env (history trackingHistory els) := by
  induction h with
  | done => rfl
  | definition hn _ ih => rw [history_cons_calc _ _ _ hn, after_cons, ih]
  | watch hw _ _ _ _ ih => rw [history_cons _ _ _ (by rw [hw]; simp), ih]; simp [trackingHistory, hw]
  | watchSdds hw _ _ _ _ ih => rw [history_cons _ _ _ (by rw [hw]; simp), ih]; simp [trackingHistory, hw]
  | fel hn h1 _ _ _ _ _ _ _ _ _ _ ih => rw [history_cons _ _ _ (by rw [hn]; simp), after_append, ih, h1]; simp [trackingHistory, hn]

theorem observer_history {L : Lib} {env env' : Env} {els os} (h : ReadsObservers L env els env' os) :
    env' = after L env (history definitions els) := by
  induction h with
  | done => rfl
  | definition hn _ ih => rw [history_cons_calc _ _ _ hn, after_cons, ih]
  | observer hn _ _ ih => rw [history_cons _ _ _ hn, after_append, ih]

/-- **C61**, **C60** (document): an accepted document consists of four accepted sections.  The constants known at the beginning of a section
are those made by all definitions before it: predefined constants, definitions at top level, definitions in the sections lattice, beam, tracking, observer
in this order, from top to bottom within each of them. -/
theorem C61_document (L : Lib) (doc : Xml) (r : Lib.Parsed) (h : L.parse doc = .ok r) :
    ∃ root lat beam track obs ps, doc.child "teufel" = some root ∧
      root.child "lattice" = some lat ∧ root.child "beam" = some beam ∧ root.child "tracking" = some track ∧ root.child "observer" = some obs ∧
      let h0 := definitions root
      let h1 := h0 ++ history latticeHistory lat.children
      let h2 := h1 ++ history beamHistory beam.children
      let h3 := h2 ++ history trackingHistory track.children
      let h4 := h3 ++ history definitions obs.children
      let at_ := after L Lib.predefined
      ReadsLattice L (at_ h0) lat.children (at_ h1) r.lattice.lattice ∧
      ReadsBeam L (at_ h1) 0 beam.children (at_ h2) r.beam.bunches r.beam.logs ps ∧
      ReadsTracking L track (at_ h2) track.children (at_ h3) r.tracking.state.watches r.tracking.state.interactions ∧
      ReadsObservers L (at_ h3) obs.children (at_ h4) r.observers.observers := by
  obtain ⟨root, hr, h1, h2, h3, h4⟩ := (C60_document L doc r).1 h
  obtain ⟨lat, fs, hl, hL, hf, -⟩ := (C60_lattice L root _ [] _).1 h1
  obtain ⟨beam, ps, hb, hB, -⟩ := (C60_beam L root _ _).1 h2
  obtain ⟨track, ht, -, -, -, -, hT⟩ := (C60_tracking L root _ _).1 h3
  obtain ⟨obs, ho, hO⟩ := (C60_observers L root _ _).1 h4
  rw [List.nil_append] at hf
  refine ⟨root, lat, beam, track, obs, ps, hr, hl, hb, ht, ho, ?_⟩
  dsimp only
  simp only [after_append]
  rw [← lattice_history hL, ← beam_history hB, ← tracking_history hT, ← observer_history hO, hf]
  exact ⟨hL, hB, hT, hO⟩

/-- the example document meets the hypothesis -/
example : ∃ r, exampleLib.parse exDoc = .ok r := exDoc_accepted

/-- in the observer section of the example the variable `a` has the value 2: the definition in the lattice makes it 1, the one in the tracking section
doubles it -/
example : after exampleLib Lib.predefined ([] ++ history latticeHistory exLattice ++ history beamHistory exBeam ++
    history trackingHistory exTracking.children) "a" = some 2 := by
  have h : ([] ++ history latticeHistory exLattice ++ history beamHistory exBeam ++ history trackingHistory exTracking.children) =
      [("a", "1"), ("a", "2*a")] := rfl
  rw [h]
  simp [after, defined, exampleLib]

/-- the predefined constants can be used everywhere and a definition of the form `a = failing` leaves everything as it was -/
example : exampleLib.eval Lib.predefined "_c" = some SpeedOfLight ∧ exampleLib.eval Lib.predefined "b" = none := by
  simp [exampleLib, Lib.predefined]

/-- what the manual says of definitions: those written directly in a section are known to all entries of the section (here: the lattice with a background field), wherever
they are placed -/
def DefinitionsFirst (L : Lib) : Prop :=
  ∀ (root lat : Xml) (env : Env) (s : Lib.LatticeState) (pre post : List Xml) (el B : Xml),
    root.child "lattice" = some lat → lat.children = pre ++ el :: post → el.name = "background" → el.child "B" = some B →
    L.parseLattice root env [] = .ok s →
    ∃ f, s.lattice[elementCount pre]? = some f ∧
      f = HomogeneousField (((el.child "E").map (L.vec (after L env (history (fun _ => []) (pre ++ el :: post))))).getD 0)
        (L.vec (after L env (history (fun _ => []) (pre ++ el :: post))) B)

/-- The statement of the manual is false: a background field before the definition of its strength vanishes.  The hypotheses are met by every
calculator that can evaluate a number and look up a variable. -/
theorem C75_position_full_statement_false (L : Lib) (h1 : ∀ env, L.eval env "1" = some 1) (hb : ∀ env, L.eval env "b" = env "b")
    (hok : L.nameOk "b" = true) : ¬DefinitionsFirst L := by
  intro h
  let bg : Xml := .node "background" [] [.node "B" [("x", "b")] []]
  let lat : Xml := .node "lattice" [] [bg, defn "b" "1"]
  have hread : ReadsLattice L (fun _ => none) [bg, defn "b" "1"] (defined L (after L (fun _ => none) []) ("b", "1"))
      [HomogeneousField 0 (L.vec (fun _ => none) (.node "B" [("x", "b")] []))] :=
    .element (by simp [bg, Xml.name]) (Source.background rfl) (.definition rfl .done)
  have hp := (C60_lattice L (.node "teufel" [] [lat]) (fun _ => none) [] ⟨_, _, 1⟩).2 ⟨lat, _, rfl, hread, rfl, rfl⟩
  obtain ⟨f, hf, he⟩ := h (.node "teufel" [] [lat]) lat (fun _ => none) _ [] [defn "b" "1"] bg (.node "B" [("x", "b")] []) rfl rfl rfl rfl hp
  have hf : f = HomogeneousField 0 (L.vec (fun _ => none) (.node "B" [("x", "b")] [])) := (Option.some.inj hf).symm
  rw [hf] at he
  have hh := congrArg (fun g : GeneralField => (g.field 0 0).map (fun e : EMField => e.B.x)) he
  have hhist : history (fun _ => []) ([] ++ bg :: [defn "b" "1"]) = [("b", "1")] := rfl
  have hl : L.eval (fun _ => none) "b" = none := hb _
  have hr : L.eval (after L (fun _ => none) [("b", "1")]) "b" = some 1 := by
    rw [hb]
    simp [after, defined, h1, hok]
  rw [hhist] at hh
  simp [HomogeneousField, Lib.vec, Lib.num, Xml.value, Xml.attr, Xml.attrs, List.lookup, hl, hr, Except.map] at hh

/-- A definition inside an undulator takes effect twice: `a = 2*a` quadruples the variable. -/
theorem C75_once_full_statement_false (L : Lib) (h2 : ∀ env, L.eval env "2*a" = (env "a").map (2 * ·)) (hok : L.nameOk "a" = true)
    (env : Env) (v : ℝ) (hv : env "a" = some v) :
    ∃ root lat und s, root.child "lattice" = some lat ∧ lat.children = [und] ∧ definitions und = [("a", "2*a")] ∧
      L.parseLattice root env [] = .ok s ∧ s.env "a" = some (4 * v) := by
  let und : Xml := .node "undulator" [("type", "planar")] [defn "a" "2*a", .node "position" [] [], .node "field" [] []]
  let lat : Xml := .node "lattice" [] [und]
  have hread : ReadsLattice L env [und] (after L env (latticeHistory und)) [_] :=
    .element (by simp [und, Xml.name]) (Source.planar rfl rfl rfl rfl) .done
  have hp := (C60_lattice L (.node "teufel" [] [lat]) env [] ⟨_, _, 1⟩).2 ⟨lat, _, rfl, hread, rfl, rfl⟩
  refine ⟨_, lat, und, _, rfl, rfl, rfl, hp, ?_⟩
  show after L env [("a", "2*a"), ("a", "2*a")] "a" = _
  show defined L (defined L env ("a", "2*a")) ("a", "2*a") "a" = _
  have e : ∀ (env : Env) (v : ℝ), env "a" = some v → defined L env ("a", "2*a") "a" = some (2 * v) := by
    intro env v hv
    simp [defined, h2, hv, hok]
  rw [e _ _ (e env v hv)]
  congr 1
  ring

/-- the example calculator meets the hypotheses -/
example : ¬DefinitionsFirst exampleLib := by
  apply C75_position_full_statement_false
  · intro env; simp [exampleLib]
  · intro env; simp [exampleLib]
  · simp [exampleLib]

example : ∃ env : Env, (∀ env : Env, exampleLib.eval env "2*a" = (env "a").map (2 * ·)) ∧ env "a" = some (1 : ℝ) ∧ exampleLib.nameOk "a" = true :=
  ⟨fun _ => some 1, by intro env; simp [exampleLib], rfl, by simp [exampleLib]⟩

/-- **C75** (what holds): definitions directly at top level are known to the whole document, wherever they are placed -/
theorem C75_top_level_partial (L : Lib) (doc : Xml) (r : Lib.Parsed) (h : L.parse doc = .ok r) :
    ∃ root lat env', doc.child "teufel" = some root ∧ root.child "lattice" = some lat ∧
      ReadsLattice L (after L Lib.predefined (definitions root)) lat.children env' r.lattice.lattice := by
  obtain ⟨root, lat, _, _, _, _, h1, h2, _, _, _, h3, _⟩ := C61_document L doc r h
  exact ⟨root, lat, _, h1, h2, h3⟩

end Input
end Teufel
