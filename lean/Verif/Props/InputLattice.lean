import Verif.Spec.InputExample
import Verif.Spec.Input

/-!
# C60, C61 (lattice section)
-/

namespace Teufel
open Input

theorem bindOk {α β : Type} (x : Except Err α) (f : α → Except Err β) (b : β) :
    (x >>= f) = .ok b ↔ ∃ a, x = .ok a ∧ f a = .ok b := by
  cases x <;> simp [bind, Except.bind]

theorem mapOk {α β : Type} (x : Except Err α) (f : α → β) (b : β) : x.map f = .ok b ↔ ∃ a, x = .ok a ∧ f a = b := by
  cases x <;> simp [Except.map]

theorem needOk {α : Type} (o : Option α) (a : α) : need o = .ok a ↔ o = some a := by
  cases o <;> simp [need]

theorem pureOk {α : Type} (a b : α) : (pure a : Except Err α) = .ok b ↔ a = b := by simp [pure, Except.pure]

theorem bindErr {α β : Type} (x : Except Err α) (f : α → Except Err β) (e : Err) :
    (x >>= f) = .error e ↔ x = .error e ∨ ∃ a, x = .ok a ∧ f a = .error e := by
  cases x <;> simp [bind, Except.bind]

theorem mapErr {α β : Type} (x : Except Err α) (f : α → β) (e : Err) : x.map f = .error e ↔ x = .error e := by
  cases x <;> simp [Except.map]

theorem needErr {α : Type} (o : Option α) (e : Err) : need o = .error e ↔ o = none ∧ e = .io := by
  cases o <;> simp [need, eq_comm]

theorem pureErr {α : Type} (a : α) (e : Err) : (pure a : Except Err α) = .error e ↔ False := by simp [pure, Except.pure]

theorem foldlM_first {σ α : Type} (f : σ → α → Except Err σ) (pre : List α) (bad : α) (post : List α) (s s' : σ) (e : Err)
    (h : pre.foldlM f s = .ok s') (hb : f s' bad = .error e) : (pre ++ bad :: post).foldlM f s = .error e := by
  rw [List.foldlM_append, h]
  show (bad :: post).foldlM f s' = _
  rw [List.foldlM_cons, hb]
  rfl

theorem value_eq {x : Xml} {a v : String} (hv : v ≠ "") : x.value a = v ↔ x.attr a = some v := by
  unfold Xml.value
  cases h : x.attr a with
  | none => simp [Ne.symm hv]
  | some w => simp

namespace Input

theorem defined_eq (L : Lib) (env : Env) (c : Xml) : L.parseCalc env c = defined L env (c.value "var", c.value "eq") := by
  unfold Lib.parseCalc defined
  by_cases h0 : c.value "var" = ""
  · rw [if_pos h0]
    funext n
    cases L.eval env (c.value "eq") <;> simp [h0]
  · rw [if_neg h0]
    funext n
    cases he : L.eval env (c.value "eq") with
    | none => simp
    | some v =>
      by_cases hn : L.nameOk (c.value "var") = true
      · by_cases hv : n = c.value "var" <;> simp [hn, hv, h0, Function.update]
      · simp [hn]

theorem after_append (L : Lib) (env : Env) (a b : List (String × String)) : after L env (a ++ b) = after L (after L env a) b := by
  simp [after, List.foldl_append]

/-- **C61** (definitions inside an entry): they take effect in file order. -/
theorem C61_children (L : Lib) (env : Env) (el : Xml) : L.parseCalcChildren env el = after L env (definitions el) := by
  unfold Lib.parseCalcChildren after definitions
  generalize el.children = cs
  induction cs generalizing env with
  | nil => rfl
  | cons c cs ih =>
    rw [List.foldl_cons, ih]
    by_cases h : c.name = "calc"
    · rw [if_pos h, defined_eq]
      simp [h]
    · rw [if_neg h]
      simp [h]

theorem source_kind {L : Lib} {env : Env} {el : Xml} {f : GeneralField} (h : Source L env el f) : Conforms latticeRules el := by
  cases h with
  | planar h1 h2 h3 h4 =>
    exact ⟨_, .head _, ⟨h1, by simpa using h2, by simp [HasAttrs], by simp, by simp [HasAttrs, h3, h4], by simp, by simp⟩⟩
  | gradient h1 h2 h3 h4 =>
    exact ⟨_, .tail _ (.head _), ⟨h1, by simpa using h2, by simp [HasAttrs], by simp, by simp [HasAttrs, h3, h4], by simp, by simp⟩⟩
  | gaussian h1 h2 h3 h4 =>
    exact ⟨_, .tail _ (.tail _ (.head _)), ⟨h1, by simpa using h2, by simp [HasAttrs], by simp, by simp [HasAttrs, h3, h4], by simp, by simp⟩⟩
  | packet h1 h2 h3 h4 =>
    exact ⟨_, .tail _ (.tail _ (.tail _ (.head _))), ⟨h1, by simpa using h2, by simp [HasAttrs], by simp, by simp [HasAttrs, h3, h4], by simp, by simp⟩⟩
  | screen h1 h2 h3 h4 h5 =>
    exact ⟨_, .tail _ (.tail _ (.tail _ (.tail _ (.head _)))), ⟨h1, by simp, by simp [HasAttrs, h2], by simp, by simp [HasAttrs, h3], by simp, by simp⟩⟩
  | invalidScreen h1 h2 h3 h4 h5 =>
    exact ⟨_, .tail _ (.tail _ (.tail _ (.tail _ (.head _)))), ⟨h1, by simp, by simp [HasAttrs, h2], by simp, by simp [HasAttrs, h3], by simp, by simp⟩⟩
  | hardEdge h1 h2 h3 h4 h5 h6 h7 =>
    exact ⟨_, .tail _ (.tail _ (.tail _ (.tail _ (.tail _ (.head _))))),
      ⟨h1, by simpa using h2, by simp [HasAttrs], by simp, by simp [HasAttrs, h3, h4, h5, h6, h7], by simp, by simp⟩⟩
  | softEdge h1 h2 h3 h4 h5 h6 h7 h8 =>
    exact ⟨_, .tail _ (.tail _ (.tail _ (.tail _ (.tail _ (.tail _ (.head _)))))),
      ⟨h1, by simpa using h2, by simp [HasAttrs], by simp, by simp [HasAttrs, h3, h4, h5, h6, h7, h8], by simp, by simp⟩⟩
  | background h1 =>
    exact ⟨_, .tail _ (.tail _ (.tail _ (.tail _ (.tail _ (.tail _ (.tail _ (.head _))))))),
      ⟨h1, by simp, by simp [HasAttrs], by simp, by simp, by simp, by simp⟩⟩

theorem element_ok (L : Lib) (env : Env) (el : Xml) (r : Env × GeneralField) :
    L.latticeElement env el = .ok r ↔ r.1 = after L env (latticeHistory el) ∧ Source L r.1 el r.2 := by
  obtain ⟨env', f⟩ := r
  constructor
  · intro h
    unfold Lib.latticeElement at h
    rw [C61_children] at h
    dsimp only at h
    by_cases h1 : el.name = "undulator"
    · have hh : after L env (latticeHistory el) = after L (after L env (definitions el)) (definitions el) := by
        rw [latticeHistory, if_pos (.inl h1), after_append]
      rw [if_pos h1] at h
      by_cases h2 : el.value "type" = "planar"
      · rw [if_pos h2] at h
        simp only [Lib.planarUndulator, bindOk, needOk, pureOk, C61_children] at h
        obtain ⟨p, hp, q, hq, h⟩ := h
        cases h
        exact ⟨hh.symm, .planar h1 ((value_eq (by decide)).1 h2) hp hq⟩
      · rw [if_neg h2] at h
        by_cases h3 : el.value "type" = "transverse gradient"
        · rw [if_pos h3] at h
          simp only [Lib.gradientUndulator, bindOk, needOk, pureOk, C61_children] at h
          obtain ⟨p, hp, q, hq, h⟩ := h
          cases h
          exact ⟨hh.symm, .gradient h1 ((value_eq (by decide)).1 h3) hp hq⟩
        · rw [if_neg h3] at h
          cases h
    · rw [if_neg h1] at h
      by_cases h4 : el.name = "wave"
      · have hh : after L env (latticeHistory el) = after L env (definitions el) := by
          rw [latticeHistory, if_neg (by simp [h4])]
        rw [if_pos h4] at h
        by_cases h2 : el.value "type" = "gaussian"
        · rw [if_pos h2] at h
          simp only [Lib.gaussianWave, bindOk, needOk, pureOk, mapOk] at h
          obtain ⟨g, ⟨p, hp, q, hq, hg⟩, h⟩ := h
          cases h
          subst hg
          exact ⟨hh.symm, .gaussian h4 ((value_eq (by decide)).1 h2) hp hq⟩
        · rw [if_neg h2] at h
          by_cases h3 : el.value "type" = "packet"
          · rw [if_pos h3] at h
            simp only [Lib.wavePacket, bindOk, needOk, pureOk, mapOk] at h
            obtain ⟨g, ⟨p, hp, q, hq, hg⟩, h⟩ := h
            cases h
            subst hg
            exact ⟨hh.symm, .packet h4 ((value_eq (by decide)).1 h3) hp hq⟩
          · rw [if_neg h3] at h
            cases h
      · rw [if_neg h4] at h
        by_cases h5 : el.name = "screen"
        · have hh : after L env (latticeHistory el) = after L env (definitions el) := by
            rw [latticeHistory, if_neg (by simp [h5])]
          rw [if_pos h5] at h
          simp only [Lib.sourceScreen, bindOk, needOk, pureOk, mapOk] at h
          obtain ⟨g, ⟨fn, hfn, p, hp, file, hf, hg⟩, h⟩ := h
          cases h
          refine ⟨hh.symm, ?_⟩
          cases hs : SourceScreen.ofFile file (L.vec (after L env (definitions el)) p) (L.num (after L env (definitions el)) p "t") with
          | ok s =>
            rw [hs] at hg
            simp only [Except.map, Lib.orPoisoned] at hg
            cases hg
            exact .screen h5 hfn hp hf hs
          | error e =>
            rw [hs] at hg
            simp only [Except.map] at hg
            cases e with
            | nan =>
              simp only [Lib.orPoisoned] at hg
              cases hg
              exact .invalidScreen h5 hfn hp hf hs
            | _ => simp [Lib.orPoisoned] at hg
        · rw [if_neg h5] at h
          by_cases h6 : el.name = "dipole"
          · have hh : after L env (latticeHistory el) = after L (after L env (definitions el)) (definitions el) := by
              rw [latticeHistory, if_pos (.inr h6), after_append]
            rw [if_pos h6] at h
            by_cases h2 : el.value "type" = "hard edge"
            · rw [if_pos h2] at h
              simp only [Lib.hardEdgeDipole, bindOk, needOk, pureOk, C61_children] at h
              obtain ⟨B, hB, p1, hp1, n1, hn1, p2, hp2, n2, hn2, h⟩ := h
              cases h
              exact ⟨hh.symm, .hardEdge h6 ((value_eq (by decide)).1 h2) hB hp1 hn1 hp2 hn2⟩
            · rw [if_neg h2] at h
              by_cases h3 : el.value "type" = "soft edge"
              · rw [if_pos h3] at h
                simp only [Lib.softEdgeDipole, bindOk, needOk, pureOk, C61_children] at h
                obtain ⟨B, hB, p1, hp1, n1, hn1, p2, hp2, n2, hn2, t, ht, h⟩ := h
                cases h
                exact ⟨hh.symm, .softEdge h6 ((value_eq (by decide)).1 h3) hB hp1 hn1 hp2 hn2 ht⟩
              · rw [if_neg h3] at h
                cases h
          · rw [if_neg h6] at h
            by_cases h7 : el.name = "background"
            · have hh : after L env (latticeHistory el) = after L env (definitions el) := by
                rw [latticeHistory, if_neg (by simp [h7])]
              rw [if_pos h7] at h
              cases h
              refine ⟨hh.symm, ?_⟩
              have := Source.background (L := L) (env := after L env (definitions el)) h7
              convert this using 2
              · cases el.child "E" <;> rfl
              · cases el.child "B" <;> rfl
            · rw [if_neg h7] at h
              cases h
  · rintro ⟨h0, h⟩
    dsimp only at h0 h
    unfold Lib.latticeElement
    rw [C61_children]
    have hu : el.name = "undulator" ∨ el.name = "dipole" → after L (after L env (definitions el)) (definitions el) = env' := fun hn => by
      rw [h0, latticeHistory, if_pos hn, after_append]
    have hw : ¬(el.name = "undulator" ∨ el.name = "dipole") → after L env (definitions el) = env' := fun hn => by
      rw [h0, latticeHistory, if_neg hn]
    cases h with
    | planar h1 h2 h3 h4 =>
      simp [h1, (value_eq (by decide)).2 h2, Lib.planarUndulator, h3, h4, need, C61_children, hu (.inl h1), bind, Except.bind, pure, Except.pure]
    | gradient h1 h2 h3 h4 =>
      simp [h1, (value_eq (by decide)).2 h2, Lib.gradientUndulator, h3, h4, need, C61_children, hu (.inl h1), bind, Except.bind, pure, Except.pure]
    | gaussian h1 h2 h3 h4 =>
      simp [h1, (value_eq (by decide)).2 h2, Lib.gaussianWave, h3, h4, need, hw (by simp [h1]), bind, Except.bind, pure, Except.pure, Except.map]
    | packet h1 h2 h3 h4 =>
      simp [h1, (value_eq (by decide)).2 h2, Lib.wavePacket, h3, h4, need, hw (by simp [h1]), bind, Except.bind, pure, Except.pure, Except.map]
    | screen h1 h2 h3 h4 h5 =>
      simp [h1, Lib.sourceScreen, h2, h3, h4, need, hw (by simp [h1]), h5, bind, Except.bind, Except.map, Lib.orPoisoned]
    | invalidScreen h1 h2 h3 h4 h5 =>
      simp [h1, Lib.sourceScreen, h2, h3, h4, need, hw (by simp [h1]), h5, bind, Except.bind, Except.map, Lib.orPoisoned, Lib.poisonedField]
    | hardEdge h1 h2 h3 h4 h5 h6 h7 =>
      simp [h1, (value_eq (by decide)).2 h2, Lib.hardEdgeDipole, h3, h4, h5, h6, h7, need, C61_children, hu (.inr h1), bind, Except.bind, pure, Except.pure]
    | softEdge h1 h2 h3 h4 h5 h6 h7 h8 =>
      simp [h1, (value_eq (by decide)).2 h2, Lib.softEdgeDipole, h3, h4, h5, h6, h7, h8, need, C61_children, hu (.inr h1), bind, Except.bind, pure, Except.pure]
    | background h1 =>
      simp [h1, hw (by simp [h1])]
      congr 1
      · cases el.child "E" <;> rfl
      · cases el.child "B" <;> rfl

/-- the only failures of an element that are not reports of a missing part come from the file of a screen -/
theorem element_error (L : Lib) (env : Env) (el : Xml) (e : Err) (h : L.latticeElement env el = .error e) (he : e ≠ .io) :
    el.name = "screen" ∧ ∃ fn p file, el.attr "file" = some fn ∧ el.child "position" = some p ∧ L.screen fn = some file ∧
      e ≠ .nan ∧ ∃ pos t, SourceScreen.ofFile file pos t = .error e := by
  unfold Lib.latticeElement at h
  dsimp only at h
  by_cases h1 : el.name = "undulator"
  · exfalso
    rw [if_pos h1] at h
    split_ifs at h
    · simp only [Lib.planarUndulator, bindErr, needErr, pureErr, he, and_false, exists_false, or_self] at h
    · simp only [Lib.gradientUndulator, bindErr, needErr, pureErr, he, and_false, exists_false, or_self] at h
    · exact he (by cases h; rfl)
  rw [if_neg h1] at h
  by_cases h2 : el.name = "wave"
  · exfalso
    rw [if_pos h2] at h
    split_ifs at h
    · simp only [Lib.gaussianWave, bindErr, needErr, pureErr, mapErr, he, and_false, exists_false, or_self] at h
    · simp only [Lib.wavePacket, bindErr, needErr, pureErr, mapErr, he, and_false, exists_false, or_self] at h
    · exact he (by cases h; rfl)
  rw [if_neg h2] at h
  by_cases h3 : el.name = "screen"
  · rw [if_pos h3] at h
    simp only [Lib.sourceScreen, bindErr, needErr, needOk, mapErr, he, and_false, false_or] at h
    obtain ⟨fn, hfn, p, hp, file, hf, h⟩ := h
    refine ⟨h3, fn, p, file, hfn, hp, hf, ?_⟩
    cases hs : SourceScreen.ofFile file (L.vec (L.parseCalcChildren env el) p) (L.num (L.parseCalcChildren env el) p "t") with
    | ok s => rw [hs] at h; simp [Except.map, Lib.orPoisoned] at h
    | error e' =>
      rw [hs] at h
      cases e' <;> simp only [Except.map, Lib.orPoisoned] at h <;> cases h <;> exact ⟨by simp, _, _, hs⟩
  rw [if_neg h3] at h
  by_cases h4 : el.name = "dipole"
  · exfalso
    rw [if_pos h4] at h
    split_ifs at h
    · simp only [Lib.hardEdgeDipole, bindErr, needErr, pureErr, he, and_false, exists_false, or_self] at h
    · simp only [Lib.softEdgeDipole, bindErr, needErr, pureErr, he, and_false, exists_false, or_self] at h
    · exact he (by cases h; rfl)
  rw [if_neg h4] at h
  by_cases h5 : el.name = "background"
  · rw [if_pos h5] at h
    cases h
  · rw [if_neg h5] at h
    exact absurd (by cases h; rfl) he

theorem element_reject (L : Lib) (env : Env) (el : Xml) (h : ¬Conforms latticeRules el) : L.latticeElement env el = .error .io := by
  cases hr : L.latticeElement env el with
  | ok r => exact absurd (source_kind ((element_ok L env el r).1 hr).2) h
  | error e =>
    by_contra he
    obtain ⟨h1, fn, p, file, h2, h3, h4, h5⟩ := element_error L env el e hr (fun hh => he (by rw [hh]))
    exact h ⟨_, .tail _ (.tail _ (.tail _ (.tail _ (.head _)))),
      ⟨h1, by simp, by simp [HasAttrs, h2], by simp, by simp [HasAttrs, h3], by simp, by simp⟩⟩

/-- an element of a known kind with all parts and readable files stands for a field source -/
theorem source_exists (L : Lib) (env : Env) (el : Xml) (h : Conforms latticeRules el) (hs : ScreensReadable L [el]) :
    ∃ f, Source L env el f := by
  obtain ⟨r, hr, h⟩ := h
  simp only [latticeRules, List.mem_cons, List.not_mem_nil, or_false] at hr
  have part : ∀ n as, (n, as) ∈ r.parts → ∃ c, el.child n = some c := fun n as hn => (h.parts _ hn).imp (fun _ hc => hc.1)
  rcases hr with hr | hr | hr | hr | hr | hr | hr | hr
  · subst hr
    obtain ⟨p, hp⟩ := part "position" [] (by simp)
    obtain ⟨f, hf⟩ := part "field" [] (by simp)
    exact ⟨_, .planar h.tag (h.kind _ rfl) hp hf⟩
  · subst hr
    obtain ⟨p, hp⟩ := part "position" [] (by simp)
    obtain ⟨f, hf⟩ := part "field" [] (by simp)
    exact ⟨_, .gradient h.tag (h.kind _ rfl) hp hf⟩
  · subst hr
    obtain ⟨p, hp⟩ := part "position" [] (by simp)
    obtain ⟨f, hf⟩ := part "field" [] (by simp)
    exact ⟨_, .gaussian h.tag (h.kind _ rfl) hp hf⟩
  · subst hr
    obtain ⟨p, hp⟩ := part "position" [] (by simp)
    obtain ⟨f, hf⟩ := part "field" [] (by simp)
    exact ⟨_, .packet h.tag (h.kind _ rfl) hp hf⟩
  · subst hr
    obtain ⟨p, hp⟩ := part "position" [] (by simp)
    obtain ⟨fn, hfn⟩ := h.attrs "file" (by simp)
    obtain ⟨file, hfile, hl⟩ := hs el (by simp) h.tag fn hfn
    cases ho : SourceScreen.ofFile file (L.vec env p) (L.num env p "t") with
    | ok s => exact ⟨_, .screen h.tag hfn hp hfile ho⟩
    | error e =>
      obtain rfl := hl _ _ _ ho
      exact ⟨_, .invalidScreen h.tag hfn hp hfile ho⟩
  · subst hr
    obtain ⟨B, hB⟩ := part "B" [] (by simp)
    obtain ⟨p1, hp1⟩ := part "p1" [] (by simp)
    obtain ⟨n1, hn1⟩ := part "n1" [] (by simp)
    obtain ⟨p2, hp2⟩ := part "p2" [] (by simp)
    obtain ⟨n2, hn2⟩ := part "n2" [] (by simp)
    exact ⟨_, .hardEdge h.tag (h.kind _ rfl) hB hp1 hn1 hp2 hn2⟩
  · subst hr
    obtain ⟨B, hB⟩ := part "B" [] (by simp)
    obtain ⟨p1, hp1⟩ := part "p1" [] (by simp)
    obtain ⟨n1, hn1⟩ := part "n1" [] (by simp)
    obtain ⟨p2, hp2⟩ := part "p2" [] (by simp)
    obtain ⟨n2, hn2⟩ := part "n2" [] (by simp)
    obtain ⟨t, ht⟩ := part "transition" [] (by simp)
    exact ⟨_, .softEdge h.tag (h.kind _ rfl) hB hp1 hn1 hp2 hn2 ht⟩
  · subst hr
    exact ⟨_, .background h.tag⟩

theorem lattice_loop (L : Lib) (els : List Xml) : ∀ (s s' : Lib.LatticeState),
    els.foldlM L.latticeStep s = .ok s' ↔
      ∃ fs, ReadsLattice L s.env els s'.env fs ∧ s'.lattice = s.lattice ++ fs ∧ s'.count = s.count + fs.length := by
  induction els with
  | nil =>
    intro s s'
    simp only [List.foldlM_nil, pureOk]
    constructor
    · rintro rfl
      exact ⟨[], .done, by simp, by simp⟩
    · rintro ⟨fs, h, h1, h2⟩
      obtain ⟨e, l, c⟩ := s
      obtain ⟨e', l', c'⟩ := s'
      cases h
      simp_all
  | cons el els ih =>
    intro s s'
    rw [List.foldlM_cons, bindOk]
    constructor
    · rintro ⟨s1, h1, h⟩
      obtain ⟨fs, hr, hl, hc⟩ := (ih s1 s').1 h
      unfold Lib.latticeStep at h1
      by_cases hn : el.name = "calc"
      · rw [if_pos hn] at h1
        cases h1
        rw [defined_eq] at hr
        exact ⟨fs, .definition hn hr, hl, hc⟩
      · rw [if_neg hn, mapOk] at h1
        obtain ⟨r, hr', rfl⟩ := h1
        obtain ⟨he, hs⟩ := (element_ok L _ _ r).1 hr'
        dsimp only at hr hl hc
        rw [he] at hr hs
        refine ⟨r.2 :: fs, .element hn hs hr, ?_, ?_⟩
        · rw [hl]; simp [Lattice.addElement]
        · rw [hc]; push_cast [List.length_cons]; ring
    · rintro ⟨fs, hr, hl, hc⟩
      cases hr with
      | definition hn hr =>
        refine ⟨_, ?_, (ih ⟨defined L s.env (el.value "var", el.value "eq"), s.lattice, s.count⟩ s').2 ⟨fs, hr, hl, hc⟩⟩
        unfold Lib.latticeStep
        rw [if_pos hn, defined_eq]
      | @element _ _ _ _ f fs hn hs hr =>
        refine ⟨_, ?_, (ih ⟨after L s.env (latticeHistory el), s.lattice ++ [f], s.count + 1⟩ s').2 ⟨fs, hr, ?_, ?_⟩⟩
        · unfold Lib.latticeStep
          rw [if_neg hn, (element_ok L s.env el (_, f)).2 ⟨rfl, hs⟩]
          rfl
        · rw [hl]; simp
        · rw [hc]; push_cast [List.length_cons]; ring

/-- **C60** (lattice): the section is accepted exactly if it is there and all of its elements can be read one after the other;
the sources created are appended in file order and their number is returned. -/
theorem C60_lattice (L : Lib) (root : Xml) (env : Env) (lat : Lattice) (s : Lib.LatticeState) :
    L.parseLattice root env lat = .ok s ↔
      ∃ node fs, root.child "lattice" = some node ∧ ReadsLattice L env node.children s.env fs ∧
        s.lattice = lat ++ fs ∧ s.count = fs.length := by
  unfold Lib.parseLattice
  simp only [bindOk, needOk, lattice_loop]
  constructor
  · rintro ⟨node, hn, fs, h1, h2, h3⟩
    exact ⟨node, fs, hn, h1, h2, by simpa using h3⟩
  · rintro ⟨node, fs, hn, h1, h2, h3⟩
    exact ⟨node, hn, fs, h1, h2, by simpa using h3⟩

/-- **C60** (lattice): every element that is read is of a known kind with its mandatory parts, and each of them creates exactly
one source. -/
theorem C60_lattice_only {L : Lib} {env env' : Env} {els : List Xml} {fs : List GeneralField} (h : ReadsLattice L env els env' fs) :
    (∀ el ∈ els, el.name ≠ "calc" → Conforms latticeRules el) ∧ fs.length = elementCount els := by
  induction h with
  | done => simp [elementCount]
  | definition hn _ ih => exact ⟨by simpa [hn] using ih.1, by simpa [elementCount, hn] using ih.2⟩
  | element hn hs _ ih =>
    refine ⟨?_, by simpa [elementCount, hn] using ih.2⟩
    intro el hel
    rcases List.mem_cons.1 hel with rfl | hel
    · exact fun _ => source_kind hs
    · exact ih.1 el hel

/-- **C60** (lattice): a section with nothing but known elements having their mandatory parts is accepted, if the files of the
screens can be loaded. -/
theorem C60_lattice_all (L : Lib) (els : List Xml) (hf : ∀ el ∈ els, el.name ≠ "calc" → Conforms latticeRules el)
    (hs : ScreensReadable L els) : ∀ env, ∃ env' fs, ReadsLattice L env els env' fs := by
  induction els with
  | nil => exact fun env => ⟨env, [], .done⟩
  | cons el els ih =>
    intro env
    have ih := ih (fun x hx => hf x (.tail _ hx)) (fun x hx => hs x (.tail _ hx))
    by_cases hn : el.name = "calc"
    · obtain ⟨env', fs, h⟩ := ih (defined L env (el.value "var", el.value "eq"))
      exact ⟨env', fs, .definition hn h⟩
    · obtain ⟨f, hfs⟩ := source_exists L (after L env (latticeHistory el)) el (hf el (.head _) hn)
        (fun x hx => hs x (by rw [List.mem_singleton.1 hx]; exact .head _))
      obtain ⟨env', fs, h⟩ := ih (after L env (latticeHistory el))
      exact ⟨env', f :: fs, .element hn hfs h⟩

/-- **C60** (lattice): the first element that is not of a known kind or lacks a mandatory part raises an `IOexception`, whatever
follows; and so does a missing section. -/
theorem C60_lattice_first (L : Lib) (root : Xml) (env : Env) (lat : Lattice) :
    (root.child "lattice" = none → L.parseLattice root env lat = .error .io) ∧
    ∀ node pre bad post env' fs, root.child "lattice" = some node → node.children = pre ++ bad :: post →
      ReadsLattice L env pre env' fs → bad.name ≠ "calc" → ¬Conforms latticeRules bad → L.parseLattice root env lat = .error .io := by
  constructor
  · intro h
    simp [Lib.parseLattice, h, need, bind, Except.bind]
  · intro node pre bad post env' fs hn hc hr hb hbad
    have hpre := (lattice_loop L pre ⟨env, lat, 0⟩ ⟨env', lat ++ fs, fs.length⟩).2 ⟨fs, hr, rfl, by simp⟩
    unfold Lib.parseLattice
    rw [hn]
    show node.children.foldlM L.latticeStep ⟨env, lat, 0⟩ = _
    rw [hc]
    refine foldlM_first _ _ _ _ _ _ _ hpre ?_
    unfold Lib.latticeStep
    rw [if_neg hb, element_reject L _ _ hbad]
    rfl

/-- The element that follows a part of the lattice gets its number from its place in the file and sees the definitions before and
inside it. -/
theorem C60_lattice_order {L : Lib} {env env' : Env} {pre post : List Xml} {el : Xml} {fs : List GeneralField}
    (h : ReadsLattice L env (pre ++ el :: post) env' fs) (hel : el.name ≠ "calc") :
    ∃ env1 gs f, ReadsLattice L env pre env1 gs ∧ Source L (after L env1 (latticeHistory el)) el f ∧
      fs[elementCount pre]? = some f ∧ fs.take (elementCount pre) = gs := by
  induction pre generalizing env fs with
  | nil =>
    cases h with
    | definition hn _ => exact absurd hn hel
    | element _ hs hr => exact ⟨env, [], _, .done, hs, rfl, rfl⟩
  | cons p pre ih =>
    rw [List.cons_append] at h
    cases h with
    | definition hn hr =>
      obtain ⟨env1, gs, f, h1, h2, h3, h4⟩ := ih hr
      have hc : elementCount (p :: pre) = elementCount pre := by simp [elementCount, hn]
      exact ⟨env1, gs, f, .definition hn h1, h2, by rw [hc]; exact h3, by rw [hc]; exact h4⟩
    | @element _ _ _ _ g fs hn hs hr =>
      obtain ⟨env1, gs, f, h1, h2, h3, h4⟩ := ih hr
      have hc : elementCount (p :: pre) = elementCount pre + 1 := by simp [elementCount, hn]
      refine ⟨env1, g :: gs, f, .element hn hs h1, h2, by rw [hc]; exact h3, ?_⟩
      rw [hc, List.take_succ_cons, h4]

/-! ## Example -/

theorem exLattice_conforms : ∀ el ∈ exLattice, el.name ≠ "calc" → Conforms latticeRules el := by
  intro el hel hn
  simp only [exLattice, List.mem_cons, List.not_mem_nil, or_false] at hel
  rcases hel with rfl | rfl | rfl
  · exact absurd rfl hn
  · exact ⟨_, .head _, ⟨rfl, by simp [Xml.attr, Xml.attrs, List.lookup], by simp [HasAttrs], by simp,
      by simp [HasAttrs, Xml.child, Xml.children, Xml.name], by simp, by simp⟩⟩
  · exact ⟨{ tag := "background" }, by simp [latticeRules], ⟨rfl, by simp, by simp [HasAttrs], by simp, by simp, by simp, by simp⟩⟩

theorem exLattice_screens : ScreensReadable exampleLib exLattice := by
  intro el hel hn
  simp only [exLattice, List.mem_cons, List.not_mem_nil, or_false] at hel
  rcases hel with rfl | rfl | rfl <;> simp [defn, Xml.name] at hn

/-- the example is read, whatever constants are known before, and yields two field sources -/
example (env : Env) : ∃ env' fs, ReadsLattice exampleLib env exLattice env' fs ∧ fs.length = 2 := by
  obtain ⟨env', fs, h⟩ := C60_lattice_all exampleLib exLattice exLattice_conforms exLattice_screens env
  exact ⟨env', fs, h, by rw [(C60_lattice_only h).2]; rfl⟩

/-- an undulator of unknown type, one without field and an unknown element -/
example : ¬Conforms latticeRules (.node "undulator" [("type", "helical")] [.node "position" [] [], .node "field" [] []]) ∧
    ¬Conforms latticeRules (.node "undulator" [("type", "planar")] [.node "position" [] []]) ∧ ¬Conforms latticeRules (.node "quadrupole" [] []) := by
  refine ⟨?_, ?_, ?_⟩ <;> rintro ⟨r, hr, h⟩ <;> simp only [latticeRules, List.mem_cons, List.not_mem_nil, or_false] at hr <;>
    rcases hr with rfl | rfl | rfl | rfl | rfl | rfl | rfl | rfl <;>
    first
    | (have h1 := h.tag; simp [Xml.name] at h1; done)
    | (have h1 := (h.kind _ rfl); simp [Xml.attr, Xml.attrs, List.lookup] at h1; done)
    | (have h1 := (h.parts ("field", []) (by simp)); simp [Xml.child, Xml.children, Xml.name] at h1; done)

end Input
end Teufel
