import Verif.Spec.InputExample
import Verif.Props.InputBeam

/-!
# C60, C61 (tracking section)
-/

namespace Teufel
namespace Input

theorem keep_ok {α : Type} (x : Except Err α) (r : Except Err α) :
    Lib.keepPoisoned x = .ok r ↔ x = r ∧ ∀ e, x = .error e → e = .nan := by
  cases x with
  | ok a => simp [Lib.keepPoisoned]
  | error e =>
    cases e <;> simp [Lib.keepPoisoned]

theorem keep_error {α : Type} (x : Except Err α) (e : Err) : Lib.keepPoisoned x = .error e ↔ x = .error e ∧ e ≠ .nan := by
  cases x with
  | ok a => simp [Lib.keepPoisoned]
  | error e' =>
    cases e' <;> simp [Lib.keepPoisoned] <;> rintro rfl <;> simp

/-- the constructor of the interaction reports missing parts, and otherwise only a negative number of cells stops it -/
theorem fel_errors (dt : ℝ) (i : FEL.Input) (e : Err) (h : FEL.ofInput dt i = .error e) (he : e ≠ .nan) :
    (e = .io ∧ (i.N = none ∨ i.position = none ∨ i.prop = none ∨ i.pol = none ∨ i.mode = none ∨ ∃ x, i.log = some (false, x))) ∨
    (e = .range ∧ ∃ n, i.N = some n ∧ n < 0) := by
  obtain ⟨N, pos, prop, pol, log, mode, seed⟩ := i
  cases N with
  | none => simp [FEL.ofInput, bind, Except.bind] at h; exact .inl ⟨h.symm, by simp⟩
  | some n =>
  cases pos with
  | none => simp [FEL.ofInput, bind, Except.bind] at h; exact .inl ⟨h.symm, by simp⟩
  | some p =>
  cases prop with
  | none => simp [FEL.ofInput, bind, Except.bind] at h; exact .inl ⟨h.symm, by simp⟩
  | some d =>
  cases pol with
  | none => simp [FEL.ofInput, bind, Except.bind] at h; exact .inl ⟨h.symm, by simp⟩
  | some q =>
  have hlog : (∃ x, log = some (false, x)) ∨ ∃ so, FEL.logStep log = .ok so := by
    rcases log with _ | ⟨_ | _, _ | st⟩ <;> simp [FEL.logStep]
  rcases hlog with ⟨x, rfl⟩ | ⟨so, hso⟩
  · simp [FEL.ofInput, FEL.logStep, bind, Except.bind] at h
    exact .inl ⟨h.symm, by simp⟩
  · cases mode with
    | none => simp [FEL.ofInput, hso, bind, Except.bind] at h; exact .inl ⟨h.symm, by simp⟩
    | some m =>
      by_cases hn : n < 0
      · simp [FEL.ofInput, hso, hn, bind, Except.bind, throw, throwThe, MonadExceptOf.throw] at h
        exact .inr ⟨h.symm, n, rfl, hn⟩
      · exfalso
        simp only [FEL.ofInput, hso, bind, Except.bind, hn, if_false, normalizeE] at h
        by_cases hd : d = 0
        · rw [if_pos hd] at h
          exact he (by cases h; rfl)
        rw [if_neg hd] at h
        dsimp only at h
        by_cases hq : q - d.normalize * Vec.dot q d.normalize = 0
        · rw [if_pos hq] at h
          exact he (by cases h; rfl)
        rw [if_neg hq] at h
        cases seed with
        | none => cases h
        | some s =>
          dsimp only [FEL.seed] at h
          split_ifs at h
          exact he (by cases h; rfl)

/-- a missing part is always reported -/
theorem fel_missing (dt : ℝ) (i : FEL.Input)
    (h : i.N = none ∨ i.position = none ∨ i.prop = none ∨ i.pol = none ∨ i.mode = none ∨ ∃ x, i.log = some (false, x)) :
    FEL.ofInput dt i = .error .io := by
  obtain ⟨N, pos, prop, pol, log, mode, seed⟩ := i
  cases N with
  | none => simp [FEL.ofInput, bind, Except.bind]
  | some n =>
  cases pos with
  | none => simp [FEL.ofInput, bind, Except.bind]
  | some p =>
  cases prop with
  | none => simp [FEL.ofInput, bind, Except.bind]
  | some d =>
  cases pol with
  | none => simp [FEL.ofInput, bind, Except.bind]
  | some q =>
  have hlog : (∃ x, log = some (false, x)) ∨ ∃ so, FEL.logStep log = .ok so := by
    rcases log with _ | ⟨_ | _, _ | st⟩ <;> simp [FEL.logStep]
  rcases hlog with ⟨x, rfl⟩ | ⟨so, hso⟩
  · simp [FEL.ofInput, FEL.logStep, bind, Except.bind]
  · cases mode with
    | none => simp [FEL.ofInput, hso, bind, Except.bind]
    | some m =>
      simp only [reduceCtorEq, false_or] at h
      obtain ⟨x, rfl⟩ := h
      simp [FEL.logStep] at hso

/-- what the entry `<fel1d>` says -/
noncomputable def felSaid (L : Lib) (env : Env) (el : Xml) (N : Int) (pos prop pol mode : Xml) : FEL.Input :=
  { N := some N, position := some (L.vec env pos), prop := some (L.vec env prop), pol := some (L.vec env pol)
    log := (el.child "log").map (fun l => (true, (l.attr "step").map L.asInt))
    mode := some (L.num env mode "zR", L.num env mode "w0", L.num env mode "zwaist")
    seed := (el.child "seed").map (fun m => { E0 := L.num env m "E0", lambda := L.num env m "lambda", tau := L.num env m "tau",
                                              tstart := L.num env m "tstart" }) }

theorem felInput_eq (L : Lib) (env : Env) (el : Xml) (N : Int) {pos prop pol mode : Xml} (h1 : el.child "position" = some pos)
    (h2 : el.child "prop" = some prop) (h3 : el.child "pol" = some pol) (h4 : el.child "mode" = some mode)
    (h5 : ∀ c, el.child "log" = some c → HasAttrs c ["file"]) : L.felInput env el (some N) = felSaid L env el N pos prop pol mode := by
  unfold Lib.felInput felSaid
  rw [h1, h2, h3, h4]
  cases hl : el.child "log" with
  | none => rfl
  | some c =>
    obtain ⟨v, hv⟩ := h5 c hl "file" (by simp)
    simp [hv]

theorem fel_entry_ok (L : Lib) (track : Xml) (s s' : Lib.TrackState) (el : Xml) :
    L.felEntry track s el = .ok s' ↔ ∃ v N pos prop pol mode, el.attr "N" = some v ∧ L.int (after L s.env (definitions el)) el "N" = .ok N ∧ 0 ≤ N ∧
      el.child "position" = some pos ∧ el.child "prop" = some prop ∧ el.child "pol" = some pol ∧ el.child "mode" = some mode ∧
      (∀ c, el.child "log" = some c → HasAttrs c ["file"]) ∧
      s' = ⟨after L s.env (definitions el), s.watches, s.interactions ++
        [FEL.ofInput (L.num (after L s.env (definitions el)) track "delta_t") (felSaid L (after L s.env (definitions el)) el N pos prop pol mode)]⟩ := by
  unfold Lib.felEntry
  simp only [bindOk, pureOk, keep_ok, C61_children]
  generalize after L s.env (definitions el) = env
  constructor
  · rintro ⟨N?, hN, f, ⟨hf, hnan⟩, rfl⟩
    have no : ¬((L.felInput env el N?).N = none ∨ (L.felInput env el N?).position = none ∨ (L.felInput env el N?).prop = none ∨
        (L.felInput env el N?).pol = none ∨ (L.felInput env el N?).mode = none ∨ ∃ x, (L.felInput env el N?).log = some (false, x)) := by
      intro hh
      have := hnan .io (fel_missing _ _ hh)
      cases this
    simp only [not_or, Lib.felInput, Option.map_eq_none_iff] at no
    obtain ⟨n1, n2, n3, n4, n5, n6⟩ := no
    obtain ⟨pos, hp⟩ := Option.ne_none_iff_exists'.1 n2
    obtain ⟨prop, hr⟩ := Option.ne_none_iff_exists'.1 n3
    obtain ⟨pol, hq⟩ := Option.ne_none_iff_exists'.1 n4
    obtain ⟨mode, hm⟩ := Option.ne_none_iff_exists'.1 n5
    have hl : ∀ c, el.child "log" = some c → HasAttrs c ["file"] := by
      intro c hc
      by_contra hno
      apply n6
      have : c.attr "file" = none := by
        cases hv : c.attr "file" with
        | none => rfl
        | some v => exact absurd (by simp [HasAttrs, hv]) hno
      exact ⟨(c.attr "step").map L.asInt, by rw [hc]; simp [this]⟩
    unfold Lib.cellCount at hN
    cases hv : el.attr "N" with
    | none => rw [hv] at hN; cases hN; exact absurd rfl n1
    | some v =>
      rw [hv] at hN
      simp only [mapOk] at hN
      obtain ⟨N, hN, rfl⟩ := hN
      rw [felInput_eq L env el N hp hr hq hm hl] at hf hnan
      have h0 : 0 ≤ N := by
        by_contra hneg
        cases he : FEL.ofInput (L.num env track "delta_t") (felSaid L env el N pos prop pol mode) with
        | ok g =>
          have : FEL.ofInput (L.num env track "delta_t") (felSaid L env el N pos prop pol mode) = .error .range := by
            unfold FEL.ofInput felSaid
            have hso : ∃ so, FEL.logStep ((el.child "log").map (fun l => (true, (l.attr "step").map L.asInt))) = .ok so := by
              cases el.child "log" with
              | none => exact ⟨_, rfl⟩
              | some c => cases h : c.attr "step" <;> simp [FEL.logStep, h]
            obtain ⟨so, hso⟩ := hso
            simp [hso, bind, Except.bind, throw, throwThe, MonadExceptOf.throw, show N < 0 by omega]
          rw [he] at this
          cases this
        | error e =>
          have h1 := hnan e he
          subst h1
          have : FEL.ofInput (L.num env track "delta_t") (felSaid L env el N pos prop pol mode) = .error .range := by
            unfold FEL.ofInput felSaid
            have hso : ∃ so, FEL.logStep ((el.child "log").map (fun l => (true, (l.attr "step").map L.asInt))) = .ok so := by
              cases el.child "log" with
              | none => exact ⟨_, rfl⟩
              | some c => cases h : c.attr "step" <;> simp [FEL.logStep, h]
            obtain ⟨so, hso⟩ := hso
            simp [hso, bind, Except.bind, throw, throwThe, MonadExceptOf.throw, show N < 0 by omega]
          rw [he] at this
          cases this
      exact ⟨v, N, pos, prop, pol, mode, rfl, hN, h0, hp, hr, hq, hm, hl, by rw [hf]⟩
  · rintro ⟨v, N, pos, prop, pol, mode, hv, hN, h0, hp, hr, hq, hm, hl, rfl⟩
    refine ⟨some N, by rw [Lib.cellCount, hv]; simp only [mapOk]; exact ⟨N, hN, rfl⟩, _, ⟨rfl, ?_⟩, by rw [felInput_eq L env el N hp hr hq hm hl]⟩
    intro e he
    by_contra hne
    rw [felInput_eq L env el N hp hr hq hm hl] at he
    rcases fel_errors _ _ _ he hne with ⟨-, h⟩ | ⟨-, n, hn, hneg⟩
    · simp only [felSaid, reduceCtorEq, false_or] at h
      obtain ⟨x, hx⟩ := h
      cases hc : el.child "log" with
      | none => rw [hc] at hx; cases hx
      | some c => rw [hc] at hx; cases hx
    · simp only [felSaid, Option.some.injEq] at hn
      omega

theorem watch_entry_ok (L : Lib) (type : WatchType) (s s' : Lib.TrackState) (el : Xml) :
    L.watchEntry type s el = .ok s' ↔ ∃ v n fn, el.attr "step" = some v ∧ L.int s.env el "step" = .ok n ∧ el.attr "file" = some fn ∧
      s' = { s with watches := s.watches ++ [⟨n, fn, type⟩] } := by
  unfold Lib.watchEntry
  simp only [bindOk, needOk, pureOk]
  constructor
  · rintro ⟨v, hv, n, hn, fn, hf, rfl⟩
    exact ⟨v, n, fn, hv, hn, hf, rfl⟩
  · rintro ⟨v, n, fn, hv, hn, hf, rfl⟩
    exact ⟨v, hv, n, hn, fn, hf, rfl⟩

theorem tracking_loop (L : Lib) (track : Xml) (els : List Xml) : ∀ (s s' : Lib.TrackState),
    els.foldlM (L.trackStep track) s = .ok s' ↔
      ∃ ws fs, ReadsTracking L track s.env els s'.env ws fs ∧ s'.watches = s.watches ++ ws ∧ s'.interactions = s.interactions ++ fs := by
  induction els with
  | nil =>
    intro s s'
    simp only [List.foldlM_nil, pureOk]
    constructor
    · rintro rfl
      exact ⟨[], [], .done, by simp, by simp⟩
    · rintro ⟨ws, fs, h, h1, h2⟩
      obtain ⟨e, w, i⟩ := s
      obtain ⟨e', w', i'⟩ := s'
      cases h
      simp_all
  | cons el els ih =>
    intro s s'
    rw [List.foldlM_cons, bindOk]
    unfold Lib.trackStep
    constructor
    · rintro ⟨s1, h1, h⟩
      obtain ⟨ws, fs, hr, e1, e2⟩ := (ih s1 s').1 h
      by_cases hc : el.name = "calc"
      · rw [if_pos hc] at h1
        cases h1
        rw [defined_eq] at hr
        exact ⟨ws, fs, .definition hc hr, e1, e2⟩
      rw [if_neg hc] at h1
      by_cases hf : el.name = "fel1d"
      · rw [if_pos hf, fel_entry_ok] at h1
        obtain ⟨v, N, pos, prop, pol, mode, hv, hN, h0, hp, hr', hq, hm, hl, rfl⟩ := h1
        exact ⟨ws, _ :: fs, .fel hf rfl hv hN h0 hp hr' hq hm hl rfl hr, e1, by rw [e2]; simp [felSaid]⟩
      rw [if_neg hf] at h1
      by_cases hw : el.name = "watch"
      · rw [if_pos hw, watch_entry_ok] at h1
        obtain ⟨v, n, fn, hv, hn, hfn, rfl⟩ := h1
        exact ⟨_ :: ws, fs, .watch hw hv hn hfn hr, by rw [e1]; simp, e2⟩
      rw [if_neg hw] at h1
      by_cases hs : el.name = "watch-sdds"
      · rw [if_pos hs, watch_entry_ok] at h1
        obtain ⟨v, n, fn, hv, hn, hfn, rfl⟩ := h1
        exact ⟨_ :: ws, fs, .watchSdds hs hv hn hfn hr, by rw [e1]; simp, e2⟩
      rw [if_neg hs] at h1
      cases h1
    · rintro ⟨ws, fs, hr, e1, e2⟩
      cases hr with
      | definition hc hr =>
        rw [if_pos hc, defined_eq]
        exact ⟨_, rfl, (ih _ s').2 ⟨ws, fs, hr, e1, e2⟩⟩
      | @watch _ _ _ _ ws _ n v fn hw hv hn hfn hr =>
        refine ⟨{ s with watches := s.watches ++ [⟨n, fn, .hdf5⟩] }, ?_, (ih _ s').2 ⟨ws, fs, hr, by rw [e1]; simp, e2⟩⟩
        simp only [hw, String.reduceEq, if_false, if_true, watch_entry_ok]
        exact ⟨v, n, fn, hv, hn, hfn, rfl⟩
      | @watchSdds _ _ _ _ ws _ n v fn hw hv hn hfn hr =>
        refine ⟨{ s with watches := s.watches ++ [⟨n, fn, .sdds⟩] }, ?_, (ih _ s').2 ⟨ws, fs, hr, by rw [e1]; simp, e2⟩⟩
        simp only [hw, String.reduceEq, if_false, if_true, watch_entry_ok]
        exact ⟨v, n, fn, hv, hn, hfn, rfl⟩
      | @fel _ env1 _ _ _ _ fs N v pos prop pol mode r hf he hv hN h0 hp hr' hq hm hl hrr hr =>
        subst he
        refine ⟨_, ?_, (ih ⟨after L s.env (definitions el), s.watches, s.interactions ++ [r]⟩ s').2 ⟨ws, fs, hr, e1, by rw [e2]; simp⟩⟩
        simp only [hf, String.reduceEq, if_false, if_true, fel_entry_ok]
        exact ⟨v, N, pos, prop, pol, mode, hv, hN, h0, hp, hr', hq, hm, hl, by rw [hrr]; rfl⟩

/-- **C60** (tracking): the section is accepted exactly if it is there, selects the only method known, gives time step and number of steps, and
all of its entries can be read one after the other; watch points and interactions are created in file order. -/
theorem C60_tracking (L : Lib) (root : Xml) (env : Env) (t : Lib.Tracking) :
    L.parseTracking root env = .ok t ↔
      ∃ track, root.child "tracking" = some track ∧ track.attr "method" = some "Vay" ∧ HasAttrs track ["delta_t", "n"] ∧
        t.timeStep = L.num env track "delta_t" ∧ L.int env track "n" = .ok t.NOTS ∧
        ReadsTracking L track env track.children t.state.env t.state.watches t.state.interactions := by
  obtain ⟨dt, N, s⟩ := t
  unfold Lib.parseTracking
  simp only [bindOk, needOk, pureOk]
  constructor
  · rintro ⟨track, ht, h⟩
    by_cases hm : track.value "method" ≠ "Vay"
    · rw [if_pos hm] at h
      obtain ⟨_, h, _⟩ := h
    · rw [if_neg hm] at h
      simp only [bindOk, needOk, pureOk, tracking_loop] at h
      push Not at hm
      obtain ⟨v1, h1, v2, h2, n, hn, s', ⟨ws, fs, hr, e1, e2⟩, hh⟩ := h
      cases hh
      refine ⟨track, ht, (value_eq (by decide)).1 hm, by simp [HasAttrs, h1, h2], rfl, hn, ?_⟩
      simp only [List.nil_append] at e1 e2
      rw [e1, e2]
      exact hr
  · rintro ⟨track, ht, hm, ha, rfl, hn, hr⟩
    refine ⟨track, ht, ?_⟩
    rw [if_neg (by simpa using (value_eq (by decide)).2 hm)]
    obtain ⟨v1, h1⟩ := ha "delta_t" (by simp)
    obtain ⟨v2, h2⟩ := ha "n" (by simp)
    simp only [bindOk, needOk, pureOk, tracking_loop]
    exact ⟨v1, h1, v2, h2, N, hn, s, ⟨_, _, hr, by simp, by simp⟩, rfl⟩

/-- **C60** (tracking): every entry that is read is of a known kind with its mandatory parts, and each of them creates exactly one watch point or
interaction. -/
theorem C60_tracking_only {L : Lib} {track : Xml} {env env' : Env} {els : List Xml} {ws fs} (h : ReadsTracking L track env els env' ws fs) :
    (∀ el ∈ els, el.name ≠ "calc" → Conforms trackingRules el) ∧ ws.length + fs.length = elementCount els := by
  induction h with
  | done => simp [elementCount]
  | definition hn _ ih => exact ⟨by simpa [hn] using ih.1, by simpa [elementCount, hn] using ih.2⟩
  | watch hw hv hn hf _ ih =>
    refine ⟨?_, ?_⟩
    · intro x hx
      rcases List.mem_cons.1 hx with rfl | hx
      · exact fun _ => ⟨_, .tail _ (.head _), ⟨hw, by simp, by simp [HasAttrs, hv, hf], by simp, by simp, by simp, by simp⟩⟩
      · exact ih.1 x hx
    · have := ih.2
      simp [elementCount, hw] at this ⊢
      omega
  | watchSdds hw hv hn hf _ ih =>
    refine ⟨?_, ?_⟩
    · intro x hx
      rcases List.mem_cons.1 hx with rfl | hx
      · exact fun _ => ⟨_, .tail _ (.tail _ (.head _)), ⟨hw, by simp, by simp [HasAttrs, hv, hf], by simp, by simp, by simp, by simp⟩⟩
      · exact ih.1 x hx
    · have := ih.2
      simp [elementCount, hw] at this ⊢
      omega
  | fel hf _ hv hN h0 hp hr hq hm hl _ _ ih =>
    refine ⟨?_, ?_⟩
    · intro x hx
      rcases List.mem_cons.1 hx with rfl | hx
      · refine fun _ => ⟨_, .head _, ⟨hf, by simp, by simp [HasAttrs, hv], by simp, by simp [HasAttrs, hp, hr, hq, hm], ?_, by simp⟩⟩
        intro p hpp
        obtain rfl := List.mem_singleton.1 hpp
        exact hl
      · exact ih.1 x hx
    · have := ih.2
      simp [elementCount, hf] at this ⊢
      omega

/-- **C60** (tracking): a section with nothing but known entries having their mandatory parts and numbers in range can be read. -/
theorem C60_tracking_all (L : Lib) (track : Xml) (els : List Xml) (hf : ∀ el ∈ els, el.name ≠ "calc" → Conforms trackingRules el)
    (hr : ∀ el ∈ els, TrackRepresentable L el) : ∀ env, ∃ env' ws fs, ReadsTracking L track env els env' ws fs := by
  induction els with
  | nil => exact fun env => ⟨env, [], [], .done⟩
  | cons el els ih =>
    intro env
    have ih := ih (fun x hx => hf x (.tail _ hx)) (fun x hx => hr x (.tail _ hx))
    by_cases hn : el.name = "calc"
    · obtain ⟨env', ws, fs, h⟩ := ih (defined L env (el.value "var", el.value "eq"))
      exact ⟨env', ws, fs, .definition hn h⟩
    · obtain ⟨r, hrr, h⟩ := hf el (.head _) hn
      have hrep := hr el (.head _)
      simp only [trackingRules, List.mem_cons, List.not_mem_nil, or_false] at hrr
      rcases hrr with rfl | rfl | rfl
      · have part : ∀ n ∈ ["position", "prop", "pol", "mode"], ∃ c, el.child n = some c := fun n hn =>
          (h.parts (n, []) (by simpa using hn)).imp (fun _ hc => hc.1)
        obtain ⟨pos, hp⟩ := part "position" (by simp)
        obtain ⟨prop, hd⟩ := part "prop" (by simp)
        obtain ⟨pol, hq⟩ := part "pol" (by simp)
        obtain ⟨mode, hm⟩ := part "mode" (by simp)
        obtain ⟨v, hv⟩ := h.attrs "N" (by simp)
        obtain ⟨N, hN, h0⟩ := hrep.2 (after L env (definitions el))
        obtain ⟨env', ws, fs, hh⟩ := ih (after L env (definitions el))
        exact ⟨env', ws, _, .fel h.tag rfl hv hN h0 hp hd hq hm (h.options ("log", ["file"]) (by simp)) rfl hh⟩
      · obtain ⟨v, hv⟩ := h.attrs "step" (by simp)
        obtain ⟨fn, hfn⟩ := h.attrs "file" (by simp)
        obtain ⟨n, hn'⟩ := hrep.1 env
        obtain ⟨env', ws, fs, hh⟩ := ih env
        exact ⟨env', _, fs, .watch h.tag hv hn' hfn hh⟩
      · obtain ⟨v, hv⟩ := h.attrs "step" (by simp)
        obtain ⟨fn, hfn⟩ := h.attrs "file" (by simp)
        obtain ⟨n, hn'⟩ := hrep.1 env
        obtain ⟨env', ws, fs, hh⟩ := ih env
        exact ⟨env', _, fs, .watchSdds h.tag hv hn' hfn hh⟩

theorem track_error (L : Lib) (track : Xml) (s : Lib.TrackState) (el : Xml) (e : Err) (hr : TrackRepresentable L el)
    (h : L.trackStep track s el = .error e) : e = .io := by
  unfold Lib.trackStep at h
  by_cases hc : el.name = "calc"
  · rw [if_pos hc] at h; cases h
  rw [if_neg hc] at h
  have hw : ∀ ty, L.watchEntry ty s el = .error e → e = .io := by
    intro ty h
    obtain ⟨n, hn⟩ := hr.1 s.env
    simp only [Lib.watchEntry, bindErr, needErr, pureErr, hn, and_false, exists_false, or_false, false_or, reduceCtorEq] at h
    rcases h with h | ⟨_, _, _, _, h⟩
    · exact h.2
    · exact h.2
  by_cases hf : el.name = "fel1d"
  · rw [if_pos hf] at h
    obtain ⟨n, hn, h0⟩ := hr.2 (L.parseCalcChildren s.env el)
    unfold Lib.felEntry Lib.cellCount at h
    cases hN : el.attr "N" with
    | none =>
      rw [hN] at h
      simp only [bindErr, pureErr, keep_error, and_false, exists_false, or_false, false_or, reduceCtorEq] at h
      obtain ⟨N?, h1, h2, h3⟩ := h
      cases h1
      rw [fel_missing _ _ (.inl rfl)] at h2
      cases h2
      rfl
    | some v =>
      rw [hN] at h
      simp only [hn, bindErr, pureErr, keep_error, and_false, exists_false, or_false, false_or, reduceCtorEq, mapErr] at h
      obtain ⟨N?, h1, h2, h3⟩ := h
      cases h1
      rcases fel_errors _ _ _ h2 h3 with h | ⟨-, m, hm, hneg⟩
      · exact h.1
      · simp only [Lib.felInput, Option.some.injEq] at hm
        omega
  rw [if_neg hf] at h
  by_cases h1 : el.name = "watch"
  · rw [if_pos h1] at h; exact hw _ h
  rw [if_neg h1] at h
  by_cases h2 : el.name = "watch-sdds"
  · rw [if_pos h2] at h; exact hw _ h
  rw [if_neg h2] at h
  cases h
  rfl

/-- **C60** (tracking): a missing section, another method, a missing time step or number of steps, and the first entry that is not of a
known kind or lacks a mandatory part (its numbers being in range) raise an `IOexception`. -/
theorem C60_tracking_first (L : Lib) (root : Xml) (env : Env) :
    (root.child "tracking" = none → L.parseTracking root env = .error .io) ∧
    (∀ track, root.child "tracking" = some track → track.attr "method" ≠ some "Vay" ∨ track.attr "delta_t" = none ∨ track.attr "n" = none →
      L.parseTracking root env = .error .io) ∧
    ∀ track pre bad post env' ws fs n, root.child "tracking" = some track → track.children = pre ++ bad :: post →
      L.int env track "n" = .ok n → ReadsTracking L track env pre env' ws fs → bad.name ≠ "calc" → ¬Conforms trackingRules bad →
      TrackRepresentable L bad → L.parseTracking root env = .error .io := by
  refine ⟨?_, ?_, ?_⟩
  · intro h
    simp [Lib.parseTracking, h, need, bind, Except.bind]
  · intro track ht h
    unfold Lib.parseTracking
    rw [ht]
    show (if track.value "method" ≠ "Vay" then _ else _) = _
    by_cases hm : track.value "method" ≠ "Vay"
    · rw [if_pos hm]; rfl
    · rw [if_neg hm]
      push Not at hm
      rcases h with h | h | h
      · exact absurd ((value_eq (by decide)).1 hm) h
      · rw [h]; rfl
      · rw [h]
        cases track.attr "delta_t" <;> rfl
  · intro track pre bad post env' ws fs n ht hc hn hr hb hbad hrep
    have hpre := (tracking_loop L track pre ⟨env, [], []⟩ ⟨env', ws, fs⟩).2 ⟨ws, fs, hr, by simp, by simp⟩
    have hbad' : L.trackStep track ⟨env', ws, fs⟩ bad = .error .io := by
      cases hs : L.trackStep track ⟨env', ws, fs⟩ bad with
      | error e => rw [track_error L _ _ _ _ hrep hs]
      | ok s' =>
        exfalso
        have := (tracking_loop L track [bad] ⟨env', ws, fs⟩ s').1 (by rw [List.foldlM_cons, hs]; rfl)
        obtain ⟨ws', fs', h, -⟩ := this
        exact hbad ((C60_tracking_only h).1 bad (by simp) hb)
    have hfold := foldlM_first _ _ _ post _ _ _ hpre hbad'
    unfold Lib.parseTracking
    rw [ht]
    show (if track.value "method" ≠ "Vay" then _ else _) = _
    by_cases hm : track.value "method" ≠ "Vay"
    · rw [if_pos hm]; rfl
    · rw [if_neg hm]
      cases h1 : track.attr "delta_t" with
      | none => rfl
      | some v1 =>
        cases h2 : track.attr "n" with
        | none => rfl
        | some v2 =>
          simp only [need, hn, hc, hfold, bind, Except.bind]

/-! ## Example -/

theorem exTracking_conforms : ∀ el ∈ exTracking.children, el.name ≠ "calc" → Conforms trackingRules el := by
  intro el hel hn
  simp only [exTracking, Xml.children, List.mem_cons, List.not_mem_nil, or_false] at hel
  rcases hel with rfl | rfl
  · exact absurd rfl hn
  · exact ⟨_, .tail _ (.head _), ⟨rfl, by simp, by simp [HasAttrs, Xml.attr, Xml.attrs, List.lookup], by simp, by simp, by simp, by simp⟩⟩

/-- the example yields one watch point at step 1, whatever constants are known before -/
theorem exTracking_reads (env : Env) : ∃ env', ReadsTracking exampleLib exTracking env exTracking.children env' [⟨1, "watch.h5", .hdf5⟩] [] := by
  refine ⟨_, .definition rfl (.watch rfl (v := "1") rfl ?_ rfl .done)⟩
  simp [Lib.int, Xml.value, Xml.attr, Xml.attrs, List.lookup, exampleLib, crint, toInt32]

/-- a watch point without file and one of an unknown kind -/
example : ¬Conforms trackingRules (.node "watch" [("step", "1")] []) ∧ ¬Conforms trackingRules (.node "watch-txt" [] []) := by
  refine ⟨?_, ?_⟩ <;> rintro ⟨r, hr, h⟩ <;> simp only [trackingRules, List.mem_cons, List.not_mem_nil, or_false] at hr <;>
    rcases hr with rfl | rfl | rfl <;>
    first
    | (have h1 := h.tag; simp [Xml.name] at h1; done)
    | (have h1 := (h.attrs "file" (by simp)); simp [Xml.attr, Xml.attrs, List.lookup] at h1; done)

end Input
end Teufel
