import Verif.Spec.InputExample
import Verif.Props.InputTracking

/-!
# C60, C61 (observer section and the whole document)
-/

namespace Teufel
namespace Input

theorem source_ok (obs : Xml) (src : Lib.SourceType) : Lib.source obs = .ok src ↔ NamedSource obs src := by
  unfold Lib.source
  cases h : obs.attr "source" with
  | none =>
    constructor
    · intro hh; cases hh; exact .default h
    · intro hh
      cases hh with
      | default => rfl
      | beam h' => exact absurd (h.symm.trans h') (by simp)
      | lattice h' => exact absurd (h.symm.trans h') (by simp)
  | some v =>
    dsimp only
    by_cases h1 : v = "beam"
    · rw [if_pos h1]
      subst h1
      constructor
      · intro hh; cases hh; exact .beam h
      · intro hh
        cases hh with
        | default => rfl
        | beam h' => rfl
        | lattice h' => rw [h] at h'; simp at h'
    · rw [if_neg h1]
      by_cases h2 : v = "lattice"
      · rw [if_pos h2]
        subst h2
        constructor
        · intro hh; cases hh; exact .lattice h
        · intro hh
          cases hh with
          | default h' => exact absurd (h.symm.trans h') (by simp)
          | beam h' => rw [h] at h'; simp at h'
          | lattice h' => rfl
      · rw [if_neg h2]
        constructor
        · intro hh; cases hh
        · intro hh
          cases hh with
          | default h' => exact absurd (h.symm.trans h') (by simp)
          | beam h' => rw [h] at h'; simp only [Option.some.injEq] at h'; exact absurd h' h1
          | lattice h' => rw [h] at h'; simp only [Option.some.injEq] at h'; exact absurd h' h2

theorem points_ok (n : Int) (m : Nat) : Lib.points n = .ok m ↔ n = m := by
  unfold Lib.points
  by_cases h : n < 0
  · rw [if_pos h]
    constructor
    · intro hh; cases hh
    · intro hh; omega
  · rw [if_neg h]
    constructor
    · intro hh
      cases hh
      omega
    · intro hh
      subst hh
      simp

theorem observer_ok (L : Lib) (env : Env) (obs : Xml) (o : Lib.ObserverSpec) : L.observerEntry env obs = .ok o ↔ Observes L env obs o := by
  unfold Lib.observerEntry
  by_cases h1 : obs.name = "snapshot"
  · rw [if_pos h1]
    simp only [Lib.snapshotEntry, bindOk, needOk, pureOk, source_ok, points_ok]
    constructor
    · rintro ⟨fn, hfn, t, ht, p, hp, h, hh, sh, hsh, v, hv, sv, hsv, src, hs, nx, hx, ny, hy, rfl⟩
      exact .snapshot h1 hfn ht hp hh hv hsh hx hsv hy hs
    · intro h
      cases h with
      | snapshot _ hfn ht hp hh hv hsh hx hsv hy hs => exact ⟨_, hfn, _, ht, _, hp, _, hh, _, hsh, _, hv, _, hsv, _, hs, _, hx, _, hy, rfl⟩
      | screen h0 => rw [h1] at h0; simp at h0
      | mesh h0 => rw [h1] at h0; simp at h0
      | point h0 => rw [h1] at h0; simp at h0
  rw [if_neg h1]
  by_cases h2 : obs.name = "screen"
  · rw [if_pos h2]
    simp only [Lib.screenEntry, bindOk, needOk, pureOk, source_ok, points_ok]
    constructor
    · rintro ⟨fn, hfn, p, hp, h, hh, sh, hsh, v, hv, sv, hsv, t, ht, st, hst, src, hs, nx, hx, ny, hy, n, hn, rfl⟩
      exact .screen h2 hfn ht hp hh hv hsh hx hsv hy hst hn hs
    · intro h
      cases h with
      | snapshot h0 => rw [h2] at h0; simp at h0
      | screen _ hfn ht hp hh hv hsh hx hsv hy hst hn hs =>
        exact ⟨_, hfn, _, hp, _, hh, _, hsh, _, hv, _, hsv, _, ht, _, hst, _, hs, _, hx, _, hy, _, hn, rfl⟩
      | mesh h0 => rw [h2] at h0; simp at h0
      | point h0 => rw [h2] at h0; simp at h0
  rw [if_neg h2]
  by_cases h3 : obs.name = "mesh"
  · rw [if_pos h3]
    simp only [Lib.meshEntry, bindOk, needOk, pureOk, source_ok]
    constructor
    · rintro ⟨fn, hfn, src, hs, file, hf, m, hm, g, hg, rfl⟩
      exact .mesh h3 hfn hf hm hg hs
    · intro h
      cases h with
      | snapshot h0 => rw [h3] at h0; simp at h0
      | screen h0 => rw [h3] at h0; simp at h0
      | mesh _ hfn hf hm hg hs => exact ⟨_, hfn, _, hs, _, hf, _, hm, _, hg, rfl⟩
      | point h0 => rw [h3] at h0; simp at h0
  rw [if_neg h3]
  by_cases h4 : obs.name = "point"
  · rw [if_pos h4]
    simp only [Lib.pointEntry, bindOk, needOk, pureOk, source_ok, points_ok]
    constructor
    · rintro ⟨fn, hfn, p, hp, t, ht, st, hst, src, hs, n, hn, rfl⟩
      exact .point h4 hfn ht hp hst hn hs
    · intro h
      cases h with
      | snapshot h0 => rw [h4] at h0; simp at h0
      | screen h0 => rw [h4] at h0; simp at h0
      | mesh h0 => rw [h4] at h0; simp at h0
      | point _ hfn ht hp hst hn hs => exact ⟨_, hfn, _, hp, _, ht, _, hst, _, hs, _, hn, rfl⟩
  rw [if_neg h4]
  constructor
  · intro h; cases h
  · intro h
    cases h with
    | snapshot h0 => exact absurd h0 h1
    | screen h0 => exact absurd h0 h2
    | mesh h0 => exact absurd h0 h3
    | point h0 => exact absurd h0 h4

theorem source_fit {obs : Xml} {src} (h : NamedSource obs src) : ∀ v, obs.attr "source" = some v → v ∈ ["beam", "lattice"] := by
  intro v hv
  cases h with
  | default h => rw [hv] at h; cases h
  | beam h => rw [hv] at h; cases h; simp
  | lattice h => rw [hv] at h; cases h; simp

theorem observer_kind {L : Lib} {env : Env} {obs : Xml} {o} (h : Observes L env obs o) : Conforms observerRules obs := by
  cases h with
  | snapshot h0 hfn ht hp hh hv hsh _ hsv _ hs =>
    exact ⟨_, .head _, ⟨h0, by simp, by simp [HasAttrs, hfn], fun c hc => by obtain rfl := List.mem_singleton.1 hc; exact source_fit hs,
      by simp [HasAttrs, ht, hp, hh, hv, hsh, hsv], by simp, by simp⟩⟩
  | screen h0 hfn ht hp hh hv hsh _ hsv _ hst _ hs =>
    exact ⟨_, .tail _ (.head _), ⟨h0, by simp, by simp [HasAttrs, hfn], fun c hc => by obtain rfl := List.mem_singleton.1 hc; exact source_fit hs,
      by simp [HasAttrs, ht, hp, hh, hv, hsh, hsv, hst], by simp, by simp⟩⟩
  | mesh h0 hfn _ _ _ hs =>
    exact ⟨_, .tail _ (.tail _ (.head _)), ⟨h0, by simp, by simp [HasAttrs, hfn],
      fun c hc => by obtain rfl := List.mem_singleton.1 hc; exact source_fit hs, by simp, by simp, by simp⟩⟩
  | point h0 hfn ht hp hst _ hs =>
    exact ⟨_, .tail _ (.tail _ (.tail _ (.head _))), ⟨h0, by simp, by simp [HasAttrs, hfn],
      fun c hc => by obtain rfl := List.mem_singleton.1 hc; exact source_fit hs, by simp [HasAttrs, ht, hp, hst], by simp, by simp⟩⟩

theorem source_exists' {obs : Xml} (h : ∀ v, obs.attr "source" = some v → v ∈ ["beam", "lattice"]) : ∃ src, NamedSource obs src := by
  cases ha : obs.attr "source" with
  | none => exact ⟨_, .default ha⟩
  | some v =>
    have := h v ha
    simp only [List.mem_cons, List.not_mem_nil, or_false] at this
    rcases this with rfl | rfl
    · exact ⟨_, .beam ha⟩
    · exact ⟨_, .lattice ha⟩

theorem observer_exists (L : Lib) (env : Env) (obs : Xml) (h : Conforms observerRules obs) (hr : ObserverRepresentable L obs) :
    ∃ o, Observes L env obs o := by
  obtain ⟨r, hrr, h⟩ := h
  simp only [observerRules, List.mem_cons, List.not_mem_nil, or_false] at hrr
  have cnt : ∀ n ∈ ["hpitch", "vpitch", "time"], ∀ c v, obs.child n = some c → c.attr "n" = some v → ∃ m : Nat, L.asInt v = m :=
    fun n hn c v hc hv => ⟨_, (Int.toNat_of_nonneg (hr.1 n hn c v hc hv)).symm⟩
  rcases hrr with rfl | rfl | rfl | rfl
  · obtain ⟨src, hs⟩ := source_exists' (h.choices ("source", ["beam", "lattice"]) (by simp))
    obtain ⟨fn, hfn⟩ := h.attrs "file" (by simp)
    obtain ⟨t, ht, -⟩ := h.parts ("time", []) (by simp)
    obtain ⟨p, hp, -⟩ := h.parts ("position", []) (by simp)
    obtain ⟨hh, hh', ha⟩ := h.parts ("hpitch", ["n"]) (by simp)
    obtain ⟨v, hv, hb⟩ := h.parts ("vpitch", ["n"]) (by simp)
    obtain ⟨sh, hsh⟩ := ha "n" (by simp)
    obtain ⟨sv, hsv⟩ := hb "n" (by simp)
    obtain ⟨nx, hx⟩ := cnt "hpitch" (by simp) _ _ hh' hsh
    obtain ⟨ny, hy⟩ := cnt "vpitch" (by simp) _ _ hv hsv
    exact ⟨_, .snapshot h.tag hfn ht hp hh' hv hsh hx hsv hy hs⟩
  · obtain ⟨src, hs⟩ := source_exists' (h.choices ("source", ["beam", "lattice"]) (by simp))
    obtain ⟨fn, hfn⟩ := h.attrs "file" (by simp)
    obtain ⟨t, ht, hc⟩ := h.parts ("time", ["n"]) (by simp)
    obtain ⟨p, hp, -⟩ := h.parts ("position", []) (by simp)
    obtain ⟨hh, hh', ha⟩ := h.parts ("hpitch", ["n"]) (by simp)
    obtain ⟨v, hv, hb⟩ := h.parts ("vpitch", ["n"]) (by simp)
    obtain ⟨sh, hsh⟩ := ha "n" (by simp)
    obtain ⟨sv, hsv⟩ := hb "n" (by simp)
    obtain ⟨st, hst⟩ := hc "n" (by simp)
    obtain ⟨nx, hx⟩ := cnt "hpitch" (by simp) _ _ hh' hsh
    obtain ⟨ny, hy⟩ := cnt "vpitch" (by simp) _ _ hv hsv
    obtain ⟨n, hn⟩ := cnt "time" (by simp) _ _ ht hst
    exact ⟨_, .screen h.tag hfn ht hp hh' hv hsh hx hsv hy hst hn hs⟩
  · obtain ⟨src, hs⟩ := source_exists' (h.choices ("source", ["beam", "lattice"]) (by simp))
    obtain ⟨fn, hfn⟩ := h.attrs "file" (by simp)
    obtain ⟨file, m, g, hf, hm, hg⟩ := hr.2 h.tag fn hfn
    exact ⟨_, .mesh h.tag hfn hf hm hg hs⟩
  · obtain ⟨src, hs⟩ := source_exists' (h.choices ("source", ["beam", "lattice"]) (by simp))
    obtain ⟨fn, hfn⟩ := h.attrs "file" (by simp)
    obtain ⟨t, ht, hc⟩ := h.parts ("time", ["n"]) (by simp)
    obtain ⟨p, hp, -⟩ := h.parts ("position", []) (by simp)
    obtain ⟨st, hst⟩ := hc "n" (by simp)
    obtain ⟨n, hn⟩ := cnt "time" (by simp) _ _ ht hst
    exact ⟨_, .point h.tag hfn ht hp hst hn hs⟩

theorem observer_loop (L : Lib) (els : List Xml) : ∀ (s s' : Lib.ObserverState),
    els.foldlM L.observerStep s = .ok s' ↔ ∃ os, ReadsObservers L s.env els s'.env os ∧ s'.observers = s.observers ++ os := by
  induction els with
  | nil =>
    intro s s'
    simp only [List.foldlM_nil, pureOk]
    constructor
    · rintro rfl
      exact ⟨[], .done, by simp⟩
    · rintro ⟨os, h, h1⟩
      obtain ⟨e, w⟩ := s
      obtain ⟨e', w'⟩ := s'
      cases h
      simp_all
  | cons el els ih =>
    intro s s'
    rw [List.foldlM_cons, bindOk]
    unfold Lib.observerStep
    rw [C61_children]
    by_cases hn : el.name = "calc"
    · rw [if_pos hn, defined_eq]
      constructor
      · rintro ⟨s1, h1, h⟩
        cases h1
        obtain ⟨os, hr, e⟩ := (ih _ s').1 h
        exact ⟨os, .definition hn hr, e⟩
      · rintro ⟨os, hr, e⟩
        cases hr with
        | definition _ hr => exact ⟨_, rfl, (ih _ s').2 ⟨os, hr, e⟩⟩
        | observer hn' => exact absurd hn hn'
    · rw [if_neg hn]
      simp only [mapOk, observer_ok]
      constructor
      · rintro ⟨s1, ⟨o, ho, rfl⟩, h⟩
        obtain ⟨os, hr, e⟩ := (ih _ s').1 h
        exact ⟨o :: os, .observer hn ho hr, by rw [e]; simp⟩
      · rintro ⟨os, hr, e⟩
        cases hr with
        | definition hn' => exact absurd hn' hn
        | @observer _ _ _ _ o os _ ho hr => exact ⟨_, ⟨o, ho, rfl⟩, (ih _ s').2 ⟨os, hr, by rw [e]; simp⟩⟩

/-- **C60** (observers): the section is accepted exactly if it is there and all of its entries can be read one after the other; the observers are
created in file order. -/
theorem C60_observers (L : Lib) (root : Xml) (env : Env) (s : Lib.ObserverState) :
    L.parseObservers root env = .ok s ↔
      ∃ node, root.child "observer" = some node ∧ ReadsObservers L env node.children s.env s.observers := by
  unfold Lib.parseObservers
  simp only [bindOk, needOk, observer_loop]
  constructor
  · rintro ⟨node, hn, os, h1, h2⟩
    simp only [List.nil_append] at h2
    exact ⟨node, hn, by rw [h2]; exact h1⟩
  · rintro ⟨node, hn, h1⟩
    exact ⟨node, hn, _, h1, by simp⟩

/-- **C60** (observers): every entry that is read is of a known kind with its mandatory parts, and each of them creates exactly one
observer. -/
theorem C60_observers_only {L : Lib} {env env' : Env} {els : List Xml} {os} (h : ReadsObservers L env els env' os) :
    (∀ el ∈ els, el.name ≠ "calc" → Conforms observerRules el) ∧ os.length = elementCount els := by
  induction h with
  | done => simp [elementCount]
  | definition hn _ ih => exact ⟨by simpa [hn] using ih.1, by simpa [elementCount, hn] using ih.2⟩
  | observer hn hs _ ih =>
    refine ⟨?_, by simpa [elementCount, hn] using ih.2⟩
    intro el hel
    rcases List.mem_cons.1 hel with rfl | hel
    · exact fun _ => observer_kind hs
    · exact ih.1 el hel

/-- **C60** (observers): a section with nothing but known entries having their mandatory parts is accepted, if numbers of points are not negative
and mesh files can be loaded. -/
theorem C60_observers_all (L : Lib) (els : List Xml) (hf : ∀ el ∈ els, el.name ≠ "calc" → Conforms observerRules el)
    (hr : ∀ el ∈ els, ObserverRepresentable L el) : ∀ env, ∃ env' os, ReadsObservers L env els env' os := by
  induction els with
  | nil => exact fun env => ⟨env, [], .done⟩
  | cons el els ih =>
    intro env
    have ih := ih (fun x hx => hf x (.tail _ hx)) (fun x hx => hr x (.tail _ hx))
    by_cases hn : el.name = "calc"
    · obtain ⟨env', os, h⟩ := ih (defined L env (el.value "var", el.value "eq"))
      exact ⟨env', os, .definition hn h⟩
    · obtain ⟨o, ho⟩ := observer_exists L (after L env (definitions el)) el (hf el (.head _) hn) (hr el (.head _))
      obtain ⟨env', os, h⟩ := ih (after L env (definitions el))
      exact ⟨env', o :: os, .observer hn ho h⟩

theorem source_error (obs : Xml) (e : Err) (h : Lib.source obs = .error e) : e = .io := by
  unfold Lib.source at h
  cases ha : obs.attr "source" with
  | none => rw [ha] at h; cases h
  | some v =>
    rw [ha] at h
    dsimp only at h
    split_ifs at h
    cases h
    rfl

/-- missing parts are reported before anything else can go wrong -/
theorem observer_reject (L : Lib) (env : Env) (obs : Xml) (h : ¬Conforms observerRules obs) : L.observerEntry env obs = .error .io := by
  cases hr : L.observerEntry env obs with
  | ok o => exact absurd (observer_kind ((observer_ok L env obs o).1 hr)) h
  | error e =>
    by_contra he
    apply h
    have he : e ≠ .io := fun hh => he (by rw [hh])
    have hs : ∀ e', Lib.source obs = .error e' → e' = e → False := fun e' h1 h2 => he (h2 ▸ source_error obs e' h1)
    unfold Lib.observerEntry at hr
    by_cases h1 : obs.name = "snapshot"
    · rw [if_pos h1] at hr
      simp only [Lib.snapshotEntry, bindErr, needErr, needOk, pureErr, he, and_false, exists_false, or_false, false_or] at hr
      obtain ⟨fn, hfn, t, ht, p, hp, hh, hh', sh, hsh, v, hv, sv, hsv, hr⟩ := hr
      rcases hr with hr | ⟨src, hsrc, -⟩
      · exact absurd (source_error obs e hr) he
      · exact ⟨_, .head _, ⟨h1, by simp, by simp [HasAttrs, hfn],
          fun c hc => by obtain rfl := List.mem_singleton.1 hc; exact source_fit ((source_ok obs src).1 hsrc),
          by simp [HasAttrs, ht, hp, hh', hv, hsh, hsv], by simp, by simp⟩⟩
    rw [if_neg h1] at hr
    by_cases h2 : obs.name = "screen"
    · rw [if_pos h2] at hr
      simp only [Lib.screenEntry, bindErr, needErr, needOk, pureErr, he, and_false, exists_false, or_false, false_or] at hr
      obtain ⟨fn, hfn, p, hp, hh, hh', sh, hsh, v, hv, sv, hsv, t, ht, st, hst, hr⟩ := hr
      rcases hr with hr | ⟨src, hsrc, -⟩
      · exact absurd (source_error obs e hr) he
      · exact ⟨_, .tail _ (.head _), ⟨h2, by simp, by simp [HasAttrs, hfn],
          fun c hc => by obtain rfl := List.mem_singleton.1 hc; exact source_fit ((source_ok obs src).1 hsrc),
          by simp [HasAttrs, ht, hp, hh', hv, hsh, hsv, hst], by simp, by simp⟩⟩
    rw [if_neg h2] at hr
    by_cases h3 : obs.name = "mesh"
    · rw [if_pos h3] at hr
      simp only [Lib.meshEntry, bindErr, needErr, needOk, pureErr, he, and_false, exists_false, or_false, false_or] at hr
      obtain ⟨fn, hfn, hr⟩ := hr
      rcases hr with hr | ⟨src, hsrc, -⟩
      · exact absurd (source_error obs e hr) he
      · exact ⟨_, .tail _ (.tail _ (.head _)), ⟨h3, by simp, by simp [HasAttrs, hfn],
          fun c hc => by obtain rfl := List.mem_singleton.1 hc; exact source_fit ((source_ok obs src).1 hsrc), by simp, by simp, by simp⟩⟩
    rw [if_neg h3] at hr
    by_cases h4 : obs.name = "point"
    · rw [if_pos h4] at hr
      simp only [Lib.pointEntry, bindErr, needErr, needOk, pureErr, he, and_false, exists_false, or_false, false_or] at hr
      obtain ⟨fn, hfn, p, hp, t, ht, st, hst, hr⟩ := hr
      rcases hr with hr | ⟨src, hsrc, -⟩
      · exact absurd (source_error obs e hr) he
      · exact ⟨_, .tail _ (.tail _ (.tail _ (.head _))), ⟨h4, by simp, by simp [HasAttrs, hfn],
          fun c hc => by obtain rfl := List.mem_singleton.1 hc; exact source_fit ((source_ok obs src).1 hsrc),
          by simp [HasAttrs, ht, hp, hst], by simp, by simp⟩⟩
    rw [if_neg h4] at hr
    exact absurd (by cases hr; rfl) he

/-- **C60** (observers): the first entry that is not of a known kind or lacks a mandatory part raises an `IOexception`, whatever follows; and
so does a missing section. -/
theorem C60_observers_first (L : Lib) (root : Xml) (env : Env) :
    (root.child "observer" = none → L.parseObservers root env = .error .io) ∧
    ∀ node pre bad post env' os, root.child "observer" = some node → node.children = pre ++ bad :: post →
      ReadsObservers L env pre env' os → bad.name ≠ "calc" → ¬Conforms observerRules bad → L.parseObservers root env = .error .io := by
  constructor
  · intro h
    simp [Lib.parseObservers, h, need, bind, Except.bind]
  · intro node pre bad post env' os hn hc hr hb hbad
    have hpre := (observer_loop L pre ⟨env, []⟩ ⟨env', os⟩).2 ⟨os, hr, by simp⟩
    unfold Lib.parseObservers
    rw [hn]
    show node.children.foldlM L.observerStep ⟨env, []⟩ = _
    rw [hc]
    refine foldlM_first _ _ _ _ _ _ _ hpre ?_
    unfold Lib.observerStep
    rw [if_neg hb, observer_reject L _ _ hbad]
    rfl

/-- **C60** (document): the program goes on to tracking exactly if the document has a `teufel` element whose four sections are accepted, each
with the constants defined before: those at top level first, wherever they are, then those of the sections lattice, beam, tracking, observer
in this order. -/
theorem C60_document (L : Lib) (doc : Xml) (r : Lib.Parsed) :
    L.parse doc = .ok r ↔ ∃ root, doc.child "teufel" = some root ∧
      L.parseLattice root (after L Lib.predefined (definitions root)) [] = .ok r.lattice ∧ L.parseBeam root r.lattice.env = .ok r.beam ∧
      L.parseTracking root r.beam.env = .ok r.tracking ∧ L.parseObservers root r.tracking.state.env = .ok r.observers := by
  obtain ⟨la, be, tr, ob⟩ := r
  unfold Lib.parse Lib.start
  simp only [bindOk, needOk, pureOk, C61_children]
  constructor
  · rintro ⟨root, h0, _, h1, _, h2, _, h3, _, h4, h⟩
    cases h
    exact ⟨root, h0, h1, h2, h3, h4⟩
  · rintro ⟨root, h0, h1, h2, h3, h4⟩
    exact ⟨root, h0, _, h1, _, h2, _, h3, _, h4, rfl⟩

/-! ## Example -/

theorem exObservers_conforms : ∀ el ∈ exObservers, el.name ≠ "calc" → Conforms observerRules el := by
  intro el hel _
  simp only [exObservers, List.mem_cons, List.not_mem_nil, or_false] at hel
  rcases hel with rfl | rfl
  · exact ⟨_, .tail _ (.tail _ (.tail _ (.head _))), ⟨rfl, by simp, by simp [HasAttrs, Xml.attr, Xml.attrs, List.lookup], by simp [Xml.attr, Xml.attrs, List.lookup],
      by simp [HasAttrs, Xml.child, Xml.children, Xml.name, Xml.attr, Xml.attrs, List.lookup], by simp, by simp⟩⟩
  · exact ⟨_, .head _, ⟨rfl, by simp, by simp [HasAttrs, Xml.attr, Xml.attrs, List.lookup], by simp [Xml.attr, Xml.attrs, List.lookup],
      by simp [HasAttrs, Xml.child, Xml.children, Xml.name, Xml.attr, Xml.attrs, List.lookup], by simp, by simp⟩⟩

theorem exObservers_representable : ∀ el ∈ exObservers, ObserverRepresentable exampleLib el := by
  intro el hel
  refine ⟨?_, ?_⟩
  · intro n _ c v _ _
    simp only [exampleLib]
    split_ifs <;> simp
  · simp only [exObservers, List.mem_cons, List.not_mem_nil, or_false] at hel
    rcases hel with rfl | rfl <;> simp [Xml.name]

/-- the example yields two observers -/
example (env : Env) : ∃ env' os, ReadsObservers exampleLib env exObservers env' os ∧ os.length = 2 := by
  obtain ⟨env', os, h⟩ := C60_observers_all exampleLib exObservers exObservers_conforms exObservers_representable env
  exact ⟨env', os, h, by rw [(C60_observers_only h).2]; rfl⟩

/-- an observation point of the field of something unknown -/
example : ¬Conforms observerRules (.node "point" [("file", "x"), ("source", "earth")] [.node "time" [("n", "3")] [], .node "position" [] []]) := by
  rintro ⟨r, hr, h⟩
  simp only [observerRules, List.mem_cons, List.not_mem_nil, or_false] at hr
  rcases hr with rfl | rfl | rfl | rfl <;>
    first
    | (have h1 := h.tag; simp [Xml.name] at h1; done)
    | (have h1 := (h.choices ("source", ["beam", "lattice"]) (by simp) "earth" rfl); simp at h1; done)

/-- the whole example is accepted -/
theorem exDoc_accepted : ∃ r, exampleLib.parse exDoc = .ok r := by
  obtain ⟨e1, fs, h1⟩ := C60_lattice_all exampleLib exLattice exLattice_conforms exLattice_screens (after exampleLib Lib.predefined [])
  obtain ⟨e2, bs, ls, ps, h2⟩ := C60_beam_all exampleLib exBeam exBeam_conforms exBeam_representable e1 0
  obtain ⟨e3, h3⟩ := exTracking_reads e2
  obtain ⟨e4, os, h4⟩ := C60_observers_all exampleLib exObservers exObservers_conforms exObservers_representable e3
  refine ⟨⟨⟨e1, fs, fs.length⟩, ⟨e2, bs, ls, ps.getLast?, bs.length⟩, ⟨1, 2, ⟨e3, [⟨1, "watch.h5", .hdf5⟩], []⟩⟩, ⟨e4, os⟩⟩, ?_⟩
  refine (C60_document exampleLib exDoc _).2 ⟨_, rfl, ?_, ?_, ?_, ?_⟩
  · exact (C60_lattice exampleLib _ _ _ _).2 ⟨_, fs, rfl, h1, rfl, rfl⟩
  · exact (C60_beam exampleLib _ _ _).2 ⟨_, ps, rfl, h2, rfl, rfl⟩
  · refine (C60_tracking exampleLib _ _ _).2 ⟨exTracking, rfl, rfl, by simp [HasAttrs, exTracking, Xml.attr, Xml.attrs, List.lookup], ?_, ?_, h3⟩
    · simp [Lib.num, exTracking, Xml.value, Xml.attr, Xml.attrs, List.lookup, exampleLib]
    · simp [Lib.int, exTracking, Xml.value, Xml.attr, Xml.attrs, List.lookup, exampleLib, crint, toInt32]
  · exact (C60_observers exampleLib _ _ _).2 ⟨_, rfl, h4⟩

end Input
end Teufel
