import Verif.Model.Program
import Verif.Spec.Requests
import Verif.Lemmas.Coupled
import Verif.Props.ProgramRuns
import Verif.Props.ProgramNames

/-!
# C103: output is passive
-/

namespace Teufel
open Vec Input

namespace Passive

theorem mapM_sub {α β : Type} {f : α → Except Err β} {l' l : List α} (h : l'.Sublist l) : ∀ {r : List β}, l.mapM f = .ok r →
    ∃ r', l'.mapM f = .ok r' ∧ r'.Sublist r := by
  induction h with
  | slnil => intro r hr; exact ⟨r, hr, .refl _⟩
  | cons a _ ih =>
    intro r hr
    rw [mapM_forall₂] at hr
    cases hr with
    | cons h1 h2 =>
      obtain ⟨r', e1, e2⟩ := ih (mapM_forall₂.mpr h2)
      exact ⟨r', e1, e2.cons _⟩
  | cons_cons a _ ih =>
    intro r hr
    rw [mapM_forall₂] at hr
    cases hr with
    | cons h1 h2 =>
      obtain ⟨r', e1, e2⟩ := ih (mapM_forall₂.mpr h2)
      exact ⟨_, mapM_forall₂.mpr (.cons h1 (mapM_forall₂.mp e1)), e2.cons_cons _⟩

/-- two computations, one of which has no effect the other one lacks -/
def Follows {α β : Type} (R : α → β → Prop) (x : Except Err α) (y : Except Err β) : Prop := ∀ b, y = .ok b → ∃ a, x = .ok a ∧ R a b

theorem Follows.bind {α β γ δ : Type} {R : α → β → Prop} {S : γ → δ → Prop} {x : Except Err α} {y : Except Err β} {f : α → Except Err γ} {g : β → Except Err δ}
    (h : Follows R x y) (hf : ∀ a b, R a b → Follows S (f a) (g b)) : Follows S (x >>= f) (y >>= g) := by
  intro d hd
  cases y with
  | error e => cases hd
  | ok b =>
    obtain ⟨a, rfl, hr⟩ := h b rfl
    exact hf a b hr d hd

theorem Follows.pure {α β : Type} {R : α → β → Prop} {a : α} {b : β} (h : R a b) : Follows R (pure a) (pure b) := by
  intro b' hb
  cases hb
  exact ⟨a, rfl, h⟩

theorem Follows.refl {α : Type} (x : Except Err α) : Follows (fun a b => a = b) x x := fun b h => ⟨b, h, rfl⟩

theorem Follows.of_eq {α : Type} {R : α → α → Prop} (hR : ∀ a, R a a) {x y : Except Err α} (h : x = y) : Follows R x y := by
  subst h
  exact fun b hb => ⟨b, hb, hR b⟩

theorem Follows.mapM {α α' β β' : Type} {R : α' → α → Prop} {S : β' → β → Prop} {f' : α' → Except Err β'} {f : α → Except Err β} (hf : ∀ a' a, R a' a → Follows S (f' a') (f a))
    {l' : List α'} {l : List α} (h : List.Forall₂ R l' l) : Follows (List.Forall₂ S) (l'.mapM f') (l.mapM f) := by
  induction h with
  | nil => exact Follows.pure .nil
  | cons h1 h2 ih =>
    rw [List.mapM_cons, List.mapM_cons]
    refine (hf _ _ h1).bind fun b' b hb => ih.bind fun r' r hr => Follows.pure (.cons hb hr)

theorem Follows.foldlM {α α' σ σ' : Type} {R : α' → α → Prop} {S : σ' → σ → Prop} {f' : σ' → α' → Except Err σ'} {f : σ → α → Except Err σ}
    (hf : ∀ s' s a' a, S s' s → R a' a → Follows S (f' s' a') (f s a)) {l' : List α'} {l : List α} (h : List.Forall₂ R l' l) :
    ∀ {s' : σ'} {s : σ}, S s' s → Follows S (l'.foldlM f' s') (l.foldlM f s) := by
  induction h with
  | nil => exact fun hs => Follows.pure hs
  | cons h1 h2 ih =>
    intro s' s hs
    rw [List.foldlM_cons, List.foldlM_cons]
    exact (hf _ _ _ _ hs h1).bind fun _ _ h => ih h

/-! ## Parsing -/

section parse
variable {L : Lib}

theorem calcChildren_filter {e e' : Xml} {keep : Xml → Bool} (h : e'.children = e.children.filter keep) (hk : ∀ c : Xml, c.name = "calc" → keep c = true) (env : Env) :
    L.parseCalcChildren env e' = L.parseCalcChildren env e := by
  unfold Lib.parseCalcChildren
  rw [h]
  generalize e.children = l
  clear h
  induction l generalizing env with
  | nil => rfl
  | cons c l ih =>
    by_cases hc : keep c = true
    · rw [List.filter_cons_of_pos hc, List.foldl_cons, List.foldl_cons, ih]
    · rw [List.filter_cons_of_neg hc, List.foldl_cons, ih, if_neg (fun e => hc (hk c e))]

theorem child_filter {e e' : Xml} {keep : Xml → Bool} (h : e'.children = e.children.filter keep) {n : String} (hk : ∀ c : Xml, c.name = n → keep c = true) :
    e'.child n = e.child n := by
  unfold Xml.child
  rw [h]
  generalize e.children = l
  clear h
  induction l with
  | nil => rfl
  | cons c l ih =>
    by_cases hc : keep c = true
    · rw [List.filter_cons_of_pos hc, List.find?_cons, List.find?_cons, ih]
    · rw [List.filter_cons_of_neg hc, List.find?_cons, ih]
      rw [show (c.name == n) = false by simpa using fun e => hc (hk c e)]

theorem child_none {e e' : Xml} {keep : Xml → Bool} (h : e'.children = e.children.filter keep) {n : String} (hk : ∀ c : Xml, c.name = n → keep c = false) :
    e'.child n = none := by
  unfold Xml.child
  rw [h, List.find?_eq_none]
  intro c hc
  have := (List.mem_filter.mp hc).2
  simp only [beq_iff_eq]
  intro e
  rw [hk c e] at this
  cases this

/-- the states of the parser after the beam sections -/
structure BeamFewer (probe : Bool) (s' s : Lib.BeamState) : Prop where
  env : s'.env = s.env
  bunches : s'.bunches = s.bunches
  logs : s'.logs.Sublist s.logs
  probe : s'.probe = if probe then s.probe else none

private theorem log_fewer {e' e : Xml} {log traj : Bool}
    (h : e'.children = e.children.filter (fun c => (log || c.name != "log") && (traj || c.name != "trajectories"))) (env : Env) (i : Nat) (b : Bool) :
    Follows (fun a b => List.Sublist a b) (L.parseLog env e' i b) (L.parseLog env e i b) := by
  cases log with
  | true =>
    refine Follows.of_eq (fun _ => .refl _) ?_
    unfold Lib.parseLog
    rw [child_filter h (fun c hc => by simp [hc])]
  | false =>
    have : L.parseLog env e' i b = .ok [] := by
      unfold Lib.parseLog
      rw [child_none h (fun c hc => by simp [hc])]
    intro r _
    exact ⟨[], this, List.nil_sublist _⟩

private theorem traj_fewer {e' e : Xml} {log traj : Bool}
    (h : e'.children = e.children.filter (fun c => (log || c.name != "log") && (traj || c.name != "trajectories"))) (i : Nat) :
    Follows (fun a b => List.Sublist a b) (L.parseTraj e' i) (L.parseTraj e i) := by
  cases traj with
  | true =>
    refine Follows.of_eq (fun _ => .refl _) ?_
    unfold Lib.parseTraj
    rw [child_filter h (fun c hc => by simp [hc])]
  | false =>
    have : L.parseTraj e' i = .ok [] := by
      unfold Lib.parseTraj
      rw [child_none h (fun c hc => by simp [hc])]
    intro r _
    exact ⟨[], this, List.nil_sublist _⟩

private theorem attr_eq {e' e : Xml} (h : e'.attrs = e.attrs) (n : String) : e'.attr n = e.attr n := by unfold Xml.attr; rw [h]

private theorem num_eq {e' e : Xml} (h : e'.attrs = e.attrs) (env : Env) (n : String) : L.num env e' n = L.num env e n := by
  unfold Lib.num Xml.value; rw [attr_eq h]

private theorem intOr_eq {e' e : Xml} (h : e'.attrs = e.attrs) (n : String) (d : Int) : L.intOr e' n d = L.intOr e n d := by
  unfold Lib.intOr; rw [attr_eq h]

private theorem beam_step {probe : Bool} {s' s : Lib.BeamState} {e' e : Xml} (hs : BeamFewer probe s' s) (he : FewerLogs e' e) (hp : probe = true ∨ e.name ≠ "probe") :
    Follows (BeamFewer probe) (L.beamStep s' e') (L.beamStep s e) := by
  obtain ⟨h1, h2, log, traj, h3⟩ := he
  have hc : ∀ env, L.parseCalcChildren env e' = L.parseCalcChildren env e := calcChildren_filter h3 (fun c hc => by simp [hc])
  have ch : ∀ n, n ≠ "log" → n ≠ "trajectories" → e'.child n = e.child n := fun n a b => child_filter h3 (fun c hc => by simp [hc, a, b])
  unfold Lib.beamStep
  rw [h1]
  split
  · refine Follows.pure (α := Lib.BeamState) (β := Lib.BeamState) ⟨?_, hs.bunches, hs.logs, hs.probe⟩
    show L.parseCalc s'.env e' = L.parseCalc s.env e
    unfold Lib.parseCalc Xml.value
    rw [hs.env, attr_eq h2, attr_eq h2]
  split
  · unfold Lib.particleEntry
    rw [hs.env, hs.bunches, hc, ch "position" (by decide) (by decide), ch "momentum" (by decide) (by decide), ch "time" (by decide) (by decide), num_eq h2, num_eq h2, num_eq h2]
    refine (Follows.refl _).bind ?_
    rintro pos _ rfl
    refine (Follows.refl _).bind ?_
    rintro dir _ rfl
    refine (log_fewer h3 _ _ _).bind fun l' l hl => Follows.pure ⟨rfl, rfl, hs.logs.append hl, hs.probe⟩
  split
  · unfold Lib.bunchEntry Lib.parseCorrelations
    rw [hs.env, hs.bunches, hc, ch "position" (by decide) (by decide), ch "momentum" (by decide) (by decide), ch "time" (by decide) (by decide), ch "correlations" (by decide) (by decide),
      num_eq h2, num_eq h2, num_eq h2, intOr_eq h2]
    refine (Follows.refl _).bind ?_
    rintro pos _ rfl
    refine (Follows.refl _).bind ?_
    rintro mom _ rfl
    dsimp only
    split
    · intro b hb
      cases hb
    · refine (Follows.refl _).bind ?_
      rintro ⟨env, cs⟩ _ rfl
      refine (log_fewer h3 _ _ _).bind fun l' l hl => (traj_fewer h3 _).bind fun t' t ht => Follows.pure ⟨rfl, rfl, (hs.logs.append hl).append ht, hs.probe⟩
  split
  · unfold Lib.sddsEntryNode Lib.parseCorrelations
    rw [hs.env, hs.bunches, attr_eq h2, ch "dir" (by decide) (by decide), ch "correlations" (by decide) (by decide)]
    refine (Follows.refl _).bind ?_
    rintro fn _ rfl
    refine (Follows.refl _).bind ?_
    rintro ⟨env, cs⟩ _ rfl
    refine (log_fewer h3 _ _ _).bind fun l' l hl => Follows.pure ⟨rfl, rfl, hs.logs.append hl, hs.probe⟩
  split
  · rename_i hpr
    have hpt : probe = true := hp.resolve_right (fun h => h hpr)
    unfold Lib.probeEntry
    rw [attr_eq h2, intOr_eq h2, intOr_eq h2]
    refine (Follows.refl _).bind ?_
    rintro fn _ rfl
    exact Follows.pure ⟨hs.env, hs.bunches, hs.logs, by simp [hpt]⟩
  · intro b hb
    cases hb

private theorem beam_fold {probe : Bool} : ∀ {l l' : List Xml} {s' s : Lib.BeamState}, BeamFewer probe s' s →
    List.Forall₂ FewerLogs l' (l.filter (fun c => probe || c.name != "probe")) → Follows (BeamFewer probe) (l'.foldlM L.beamStep s') (l.foldlM L.beamStep s) := by
  intro l
  induction l with
  | nil =>
    intro l' s' s hs h
    cases h
    exact Follows.pure hs
  | cons c l ih =>
    intro l' s' s hs h
    by_cases hc : (probe || c.name != "probe") = true
    · rw [List.filter_cons_of_pos (p := fun c : Xml => probe || c.name != "probe") hc] at h
      cases h with
      | cons h1 h2 =>
        rw [List.foldlM_cons, List.foldlM_cons]
        refine (beam_step hs h1 ?_).bind fun _ _ h => ih h h2
        simpa using hc
    · rw [List.filter_cons_of_neg (p := fun c : Xml => probe || c.name != "probe") hc] at h
      have hn : probe = false ∧ c.name = "probe" := by simpa using hc
      intro b hb
      rw [List.foldlM_cons] at hb
      cases hx : L.beamStep s c with
      | error e => rw [hx] at hb; cases hb
      | ok s1 =>
        rw [hx] at hb
        refine ih (s' := s') (s := s1) ?_ h b hb
        unfold Lib.beamStep at hx
        rw [hn.2] at hx
        simp only [String.reduceEq, if_false, if_true] at hx
        unfold Lib.probeEntry at hx
        cases hf : need (c.attr "file") with
        | error e => rw [hf] at hx; cases hx
        | ok fn =>
          rw [hf] at hx
          cases hx
          exact ⟨hs.env, hs.bunches, hs.logs, by rw [hs.probe, hn.1]; rfl⟩

/-- the states of the parser in the tracking section -/
structure TrackFewer (s' s : Lib.TrackState) : Prop where
  env : s'.env = s.env
  watches : s'.watches.Sublist s.watches
  interactions : s'.interactions = s.interactions

private theorem track_step {t' t : Xml} (ht : t'.attrs = t.attrs) {s' s : Lib.TrackState} (hs : TrackFewer s' s) (c : Xml) :
    Follows TrackFewer (L.trackStep t' s' c) (L.trackStep t s c) := by
  unfold Lib.trackStep
  split
  · exact Follows.pure (α := Lib.TrackState) (β := Lib.TrackState) ⟨by rw [hs.env], hs.watches, hs.interactions⟩
  split
  · unfold Lib.felEntry
    rw [hs.env, hs.interactions]
    dsimp only
    rw [num_eq ht]
    refine (Follows.refl _).bind ?_
    rintro N _ rfl
    refine (Follows.refl _).bind ?_
    rintro f _ rfl
    exact Follows.pure ⟨rfl, hs.watches, rfl⟩
  have hw : ∀ ty, Follows TrackFewer (L.watchEntry ty s' c) (L.watchEntry ty s c) := by
    intro ty
    unfold Lib.watchEntry
    rw [hs.env]
    refine (Follows.refl _).bind ?_
    rintro _ _ rfl
    refine (Follows.refl _).bind ?_
    rintro n _ rfl
    refine (Follows.refl _).bind ?_
    rintro fn _ rfl
    exact Follows.pure ⟨rfl, hs.watches.append (.refl _), hs.interactions⟩
  split
  · exact hw _
  split
  · exact hw _
  · intro b hb
    cases hb

private theorem watch_only {t : Xml} {s s1 : Lib.TrackState} {c : Xml} (hc : isWatch c) (h : L.trackStep t s c = .ok s1) {s' : Lib.TrackState} (hs : TrackFewer s' s) : TrackFewer s' s1 := by
  have hw : ∀ ty, L.watchEntry ty s c = .ok s1 → TrackFewer s' s1 := by
    intro ty h
    unfold Lib.watchEntry at h
    cases h1 : need (c.attr "step") with
    | error e => rw [h1] at h; cases h
    | ok a =>
      cases h2 : L.int s.env c "step" with
      | error e => rw [h1, h2] at h; cases h
      | ok n =>
        cases h3 : need (c.attr "file") with
        | error e => rw [h1, h2, h3] at h; cases h
        | ok fn =>
          rw [h1, h2, h3] at h
          cases h
          exact ⟨hs.env, hs.watches.trans (List.sublist_append_left _ _), hs.interactions⟩
  unfold Lib.trackStep at h
  rcases hc with e | e
  · rw [e] at h
    simp only [String.reduceEq, if_false, if_true] at h
    exact hw _ h
  · rw [e] at h
    simp only [String.reduceEq, if_false, if_true] at h
    exact hw _ h

private theorem track_fold {t' t : Xml} (ht : t'.attrs = t.attrs) {l' l : List Xml} (h : Thinned isWatch l' l) : ∀ {s' s : Lib.TrackState}, TrackFewer s' s →
    Follows TrackFewer (l'.foldlM (L.trackStep t') s') (l.foldlM (L.trackStep t) s) := by
  induction h with
  | nil => exact fun hs => Follows.pure hs
  | keep x _ ih =>
    intro s' s hs
    rw [List.foldlM_cons, List.foldlM_cons]
    exact (track_step ht hs x).bind fun _ _ h => ih h
  | skip x hx _ ih =>
    intro s' s hs b hb
    rw [List.foldlM_cons] at hb
    cases h1 : L.trackStep t s x with
    | error e => rw [h1] at hb; cases hb
    | ok s1 =>
      rw [h1] at hb
      exact ih (watch_only hx h1 hs) b hb

/-- the states of the parser in the observer section -/
structure ObsFewer (s' s : Lib.ObserverState) : Prop where
  env : s'.env = s.env
  observers : s'.observers.Sublist s.observers

private theorem obs_step {s' s : Lib.ObserverState} (hs : ObsFewer s' s) (c : Xml) : Follows ObsFewer (L.observerStep s' c) (L.observerStep s c) := by
  unfold Lib.observerStep
  rw [hs.env]
  split
  · exact Follows.pure (α := Lib.ObserverState) (β := Lib.ObserverState) ⟨rfl, hs.observers⟩
  · intro b hb
    cases h1 : L.observerEntry (L.parseCalcChildren s.env c) c with
    | error e => rw [h1] at hb; cases hb
    | ok o =>
      rw [h1] at hb
      cases hb
      exact ⟨_, rfl, rfl, hs.observers.append (.refl _)⟩

private theorem calc_none {c : Xml} (h : ∀ d ∈ c.children, d.name ≠ "calc") (env : Env) : L.parseCalcChildren env c = env := by
  unfold Lib.parseCalcChildren
  generalize c.children = l at h
  induction l generalizing env with
  | nil => rfl
  | cons d l ih =>
    rw [List.foldl_cons, if_neg (h d (by simp))]
    exact ih env (fun d hd => h d (by simp [hd]))

private theorem obs_fold {l' l : List Xml} (h : Thinned isObserver l' l) : ∀ {s' s : Lib.ObserverState}, ObsFewer s' s →
    Follows ObsFewer (l'.foldlM L.observerStep s') (l.foldlM L.observerStep s) := by
  induction h with
  | nil => exact fun hs => Follows.pure hs
  | keep x _ ih =>
    intro s' s hs
    rw [List.foldlM_cons, List.foldlM_cons]
    exact (obs_step hs x).bind fun _ _ h => ih h
  | skip x hx _ ih =>
    intro s' s hs b hb
    rw [List.foldlM_cons] at hb
    cases h1 : L.observerStep s x with
    | error e => rw [h1] at hb; cases hb
    | ok s1 =>
      rw [h1] at hb
      refine ih (s := s1) ?_ b hb
      unfold Lib.observerStep at h1
      rw [if_neg hx.1, calc_none hx.2] at h1
      cases h2 : L.observerEntry s.env x with
      | error e => rw [h2] at h1; cases h1
      | ok o =>
        rw [h2] at h1
        cases h1
        exact ⟨hs.env, hs.observers.trans (List.sublist_append_left _ _)⟩

/-- what the program takes from an input file with fewer requests -/
structure ParsedFewer (p' p : Lib.Parsed) : Prop where
  lattice : p'.lattice = p.lattice
  bunches : p'.beam.bunches = p.beam.bunches
  logs : p'.beam.logs.Sublist p.beam.logs
  probe : p'.beam.probe = p.beam.probe ∨ p'.beam.probe = none
  timeStep : p'.tracking.timeStep = p.tracking.timeStep
  NOTS : p'.tracking.NOTS = p.tracking.NOTS
  watches : p'.tracking.state.watches.Sublist p.tracking.state.watches
  interactions : p'.tracking.state.interactions = p.tracking.state.interactions
  observers : p'.observers.observers.Sublist p.observers.observers

private theorem child_section {l' l : List Xml} (h : List.Forall₂ FewerIn l' l) (n : String) :
    (l'.find? (fun c => c.name == n) = none ∧ l.find? (fun c => c.name == n) = none) ∨
    ∃ s' s, l'.find? (fun c => c.name == n) = some s' ∧ l.find? (fun c => c.name == n) = some s ∧ s.name = n ∧ FewerIn s' s := by
  induction h with
  | nil => exact Or.inl ⟨rfl, rfl⟩
  | cons h1 h2 ih =>
    rename_i a b l1 l2
    rw [List.find?_cons, List.find?_cons, h1.1]
    by_cases hb : b.name = n
    · right
      refine ⟨a, b, ?_, ?_, hb, h1⟩ <;> simp [hb]
    · rw [show (b.name == n) = false by simpa using hb]
      exact ih

private theorem start_eq {r' r : Xml} (h : List.Forall₂ FewerIn r'.children r.children) (env : Env) : L.parseCalcChildren env r' = L.parseCalcChildren env r := by
  unfold Lib.parseCalcChildren
  generalize r'.children = l' at h
  generalize r.children = l at h
  induction h generalizing env with
  | nil => rfl
  | cons h1 h2 ih =>
    rename_i a b l1 l2
    rw [List.foldl_cons, List.foldl_cons, h1.1, ih]
    by_cases hb : b.name = "calc"
    · have hab : a = b := by
        have := h1.2.2
        rw [hb] at this
        simpa using this
      rw [hab]
    · rw [if_neg hb, if_neg hb]

theorem parse_fewer {doc' doc : Xml} (h : Fewer doc' doc) : Follows ParsedFewer (L.parse doc') (L.parse doc) := by
  obtain ⟨r', r, h1, h2, h3⟩ := h
  unfold Lib.parse
  rw [h1, h2]
  refine Follows.bind (R := fun a b => a = r' ∧ b = r) (fun b hb => ⟨r', rfl, rfl, by cases hb; rfl⟩) ?_
  rintro x y ⟨hx, hy⟩
  subst x y
  have hst : L.start r' = L.start r := start_eq h3 _
  have hsec : ∀ n, (r'.child n = none ∧ r.child n = none) ∨ ∃ s' s, r'.child n = some s' ∧ r.child n = some s ∧ s.name = n ∧ FewerIn s' s := fun n => child_section h3 n
  -- lattice
  have hlat : L.parseLattice r' (L.start r') [] = L.parseLattice r (L.start r) [] := by
    unfold Lib.parseLattice
    rw [hst]
    rcases hsec "lattice" with ⟨a, b⟩ | ⟨s', s, a, b, c, d⟩
    · rw [a, b]
    · have : s' = s := by
        have := d.2.2
        rw [c] at this
        simpa using this
      rw [a, b, this]
  rw [hlat]
  refine (Follows.refl _).bind ?_
  rintro la _ rfl
  -- beam
  have hbeam : Follows (fun s' s => ∃ probe, BeamFewer probe s' s) (L.parseBeam r' la.env) (L.parseBeam r la.env) := by
    unfold Lib.parseBeam
    rcases hsec "beam" with ⟨a, b⟩ | ⟨s', s, a, b, c, d⟩
    · rw [a, b]
      intro x hx
      cases hx
    · rw [a, b]
      have hd := d.2.2
      rw [c] at hd
      simp only [if_true] at hd
      obtain ⟨probe, hd⟩ := hd
      intro x hx
      obtain ⟨y, hy, hr⟩ := beam_fold (L := L) (probe := probe) (s' := ⟨la.env, [], [], none, 0⟩) (s := ⟨la.env, [], [], none, 0⟩)
        ⟨rfl, rfl, .refl _, by cases probe <;> rfl⟩ hd x hx
      exact ⟨y, hy, probe, hr⟩
  refine hbeam.bind ?_
  rintro be' be ⟨probe, hbe⟩
  -- tracking
  have htrack : Follows (fun t' t : Lib.Tracking => t'.timeStep = t.timeStep ∧ t'.NOTS = t.NOTS ∧ TrackFewer t'.state t.state) (L.parseTracking r' be'.env) (L.parseTracking r be.env) := by
    unfold Lib.parseTracking
    rw [hbe.env]
    rcases hsec "tracking" with ⟨a, b⟩ | ⟨s', s, a, b, c, d⟩
    · rw [a, b]
      intro x hx
      cases hx
    · rw [a, b]
      have hd := d.2.2
      rw [c] at hd
      simp only [String.reduceEq, if_false, if_true] at hd
      refine Follows.bind (R := fun a b => a = s' ∧ b = s) (fun b hb => ⟨s', rfl, rfl, by cases hb; rfl⟩) ?_
      rintro x y ⟨hx, hy⟩
      subst x y
      have hv : ∀ n, s'.value n = s.value n := fun n => by unfold Xml.value; rw [attr_eq d.2.1]
      have hi : ∀ n, L.int be.env s' n = L.int be.env s n := fun n => by unfold Lib.int; rw [hv]
      rw [hv, attr_eq d.2.1, attr_eq d.2.1, hi, num_eq d.2.1]
      dsimp only
      split
      · intro x hx
        cases hx
      · refine (Follows.refl _).bind ?_
        rintro _ _ rfl
        refine (Follows.refl _).bind ?_
        rintro _ _ rfl
        refine (Follows.refl _).bind ?_
        rintro n _ rfl
        exact (track_fold d.2.1 hd ⟨rfl, .refl _, rfl⟩).bind fun x y hxy => Follows.pure ⟨rfl, rfl, hxy⟩
  refine htrack.bind ?_
  rintro tr' tr ⟨ht1, ht2, ht3⟩
  -- observers
  have hobs : Follows ObsFewer (L.parseObservers r' tr'.state.env) (L.parseObservers r tr.state.env) := by
    unfold Lib.parseObservers
    rw [ht3.env]
    rcases hsec "observer" with ⟨a, b⟩ | ⟨s', s, a, b, c, d⟩
    · rw [a, b]
      intro x hx
      cases hx
    · rw [a, b]
      have hd := d.2.2
      rw [c] at hd
      simp only [String.reduceEq, if_false, if_true] at hd
      exact obs_fold hd ⟨rfl, .refl _⟩
  refine hobs.bind fun o' o ho => Follows.pure ⟨rfl, hbe.bunches, hbe.logs, ?_, ht1, ht2, ht3.watches, ht3.interactions, ho.observers⟩
  show be'.probe = be.probe ∨ be'.probe = none
  rw [hbe.probe]
  cases probe
  · exact Or.inr rfl
  · exact Or.inl rfl

theorem fel_files {doc' doc : Xml} (h : Fewer doc' doc) : Lib.felFiles doc' = Lib.felFiles doc := by
  obtain ⟨r', r, h1, h2, h3⟩ := h
  unfold Lib.felFiles
  rw [h1, h2]
  rcases child_section h3 "tracking" with ⟨a, b⟩ | ⟨s', s, a, b, c, d⟩
  · have a' : r'.child "tracking" = none := a
    have b' : r.child "tracking" = none := b
    simp only [Option.bind_some, a', b']
  · have a' : r'.child "tracking" = some s' := a
    have b' : r.child "tracking" = some s := b
    simp only [Option.bind_some, a', b']
    congr 1
    have hd := d.2.2
    rw [c] at hd
    simp only [String.reduceEq, if_false, if_true] at hd
    generalize s'.children = l' at hd
    generalize s.children = l at hd
    clear * - hd
    induction hd with
    | nil => rfl
    | keep x _ ih => rw [List.filter_cons, List.filter_cons, ih]
    | skip x hx _ ih =>
      rw [ih, List.filter_cons, if_neg]
      rcases hx with e | e <;> rw [e] <;> decide

end parse

/-! ## Tracking -/

section run
variable {σ ω : Type}

/-- two runs that differ in the output only -/
structure SameRun (R' R : Run σ ω) : Prop where
  nodes : R'.nodes = R.nodes
  NOTS : R'.NOTS = R.NOTS
  lattice : R'.lattice = R.lattice
  initInter : R'.initInter = R.initInter
  stepInter : R'.stepInter = R.stepInter
  junk : R'.junk = R.junk

/-- the same nodes, with related output -/
def SameWorld (S : ω → ω → Prop) (w' w : World σ ω) : Prop := w'.nodes = w.nodes ∧ S w'.out w.out

theorem rankZero_follows {S S1 : ω → ω → Prop} {f' f : Beam → Beam → ω → Except Err ω} (nodes : List (Node σ)) (hn : nodes ≠ []) {o' o : ω} (ho : S o' o)
    (h : ∀ m t o' o, S o' o → Follows S1 (f' m t o') (f m t o)) : Follows S1 (rankZero f' nodes o') (rankZero f nodes o) := by
  cases nodes with
  | nil => exact absurd rfl hn
  | cons n ns => exact h _ _ _ _ ho

theorem setup_follows {S S1 : ω → ω → Prop} {R' R : Run σ ω} (hR : SameRun R' R) (hstart : ∀ m t o' o, S o' o → Follows S1 (R'.startOut m t o') (R.startOut m t o))
    (ms : List Beam) (s : σ) {o' o : ω} (ho : S o' o) :
    Follows (fun w' w => SameWorld S1 w' w ∧ w.nodes ≠ []) (setupRun R' ms s o') (setupRun R ms s o) := by
  unfold setupRun
  cases ms with
  | nil => intro b hb; cases hb
  | cons m0 ms =>
    dsimp only
    have hsn : ∀ m rank, setupNode R' m s rank = setupNode R m s rank := by
      intro m rank
      unfold setupNode
      rw [hR.nodes, hR.NOTS, hR.lattice]
    simp only [hsn, hR.nodes, hR.junk, hR.NOTS, hR.initInter]
    refine (Follows.refl _).bind ?_
    rintro nop _ rfl
    split
    · intro b hb; cases hb
    refine (Follows.refl _).bind ?_
    rintro vals _ rfl
    intro w hw
    simp only [bind, Except.bind] at hw ⊢
    revert hw
    cases hbuf : intoBuffer (trackingNOP nop R.nodes * R.nodes * 10) (R.junk 0 0) vals with
    | error e => intro hw; cases hw
    | ok buf =>
      dsimp only
      cases hma : (m0 :: ms).mapM (fun m : Beam => setupMaster m buf R.NOTS) with
      | error e => intro hw; cases hw
      | ok masters =>
        dsimp only
        cases hno : masters.zipIdx.mapM (fun mr : Beam × Nat => setupNode R mr.1 s mr.2) with
        | error e => intro hw; cases hw
        | ok nodes =>
          dsimp only
          have hl := (mapM_except_length hma).1
          have hl2 := (mapM_except_length hno).1
          have hne : nodes ≠ [] := List.ne_nil_of_length_pos (by rw [List.length_zipIdx] at hl2; rw [List.length_cons] at hl; omega)
          cases hz : rankZero R.startOut nodes o with
          | error e => intro hw; cases hw
          | ok o1 =>
            obtain ⟨o1', h1, h2⟩ := rankZero_follows nodes hne ho hstart _ hz
            rw [h1]
            dsimp only
            cases hi : nodes.mapM (Node.interact R.initInter) with
            | error e => intro hw; cases hw
            | ok nodes1 =>
              intro hw
              cases hw
              refine ⟨_, rfl, ⟨rfl, h2⟩, ?_⟩
              have hl3 := (mapM_except_length hi).1
              rintro rfl
              cases nodes with
              | nil => exact hne rfl
              | cons _ _ => simp at hl3

theorem step_follows {S : ω → ω → Prop} {R' R : Run σ ω} (hR : SameRun R' R) (hstep : ∀ k m t o' o, S o' o → Follows S (R'.stepOut k m t o') (R.stepOut k m t o))
    (step : Nat) {w' w : World σ ω} (hw : SameWorld S w' w ∧ w.nodes ≠ []) :
    Follows (fun w' w => SameWorld S w' w ∧ w.nodes ≠ []) (trackStep R' w' step) (trackStep R w step) := by
  obtain ⟨⟨hn, ho⟩, hne⟩ := hw
  unfold trackStep
  have h1 : Node.advance R' = Node.advance R := by funext n; unfold Node.advance; rw [hR.lattice]
  have h2 : Node.contribution R' step = Node.contribution R step := by funext n; unfold Node.contribution; rw [hR.nodes, hR.junk]
  rw [hn, h1, h2, hR.stepInter]
  intro v hv
  simp only [bind, Except.bind] at hv ⊢
  revert hv
  cases ha : w.nodes.mapM (Node.advance R) with
  | error e => intro hv; cases hv
  | ok nodes =>
    dsimp only
    cases hb : nodes.zipIdx.mapM (Node.contribution R step) with
    | error e => intro hv; cases hv
    | ok bufs =>
      dsimp only
      cases hc : nodes.mapM (Node.receive step bufs.flatten) with
      | error e => intro hv; cases hv
      | ok nodes1 =>
        dsimp only
        have l1 := (mapM_except_length ha).1
        have l2 := (mapM_except_length hc).1
        have hpos : 0 < w.nodes.length := List.length_pos_of_ne_nil hne
        have hne1 : nodes1 ≠ [] := List.ne_nil_of_length_pos (by omega)
        cases hz : rankZero (R.stepOut (step + 1)) nodes1 w.out with
        | error e => intro hv; cases hv
        | ok o1 =>
          obtain ⟨o1', h3, h4⟩ := rankZero_follows nodes1 hne1 ho (hstep (step + 1)) _ hz
          rw [h3]
          dsimp only
          cases hi : nodes1.mapM (Node.interact R.stepInter) with
          | error e => intro hv; cases hv
          | ok nodes2 =>
            intro hv
            cases hv
            have l3 := (mapM_except_length hi).1
            exact ⟨_, rfl, ⟨rfl, h4⟩, List.ne_nil_of_length_pos (by dsimp only; omega)⟩

/-- the output does not influence the tracking -/
theorem run_follows {S S1 : ω → ω → Prop} {R' R : Run σ ω} (hR : SameRun R' R) (hstart : ∀ m t o' o, S o' o → Follows S1 (R'.startOut m t o') (R.startOut m t o))
    (hstep : ∀ k m t o' o, S1 o' o → Follows S1 (R'.stepOut k m t o') (R.stepOut k m t o)) (ms : List Beam) (s : σ) {o' o : ω} (ho : S o' o) :
    Follows (SameWorld S1) (runAll R' ms s o') (runAll R ms s o) := by
  unfold runAll runSteps
  rw [hR.NOTS]
  refine Follows.bind (setup_follows hR hstart ms s ho) fun w' w hw => ?_
  intro v hv
  obtain ⟨v', h1, h2⟩ := Follows.foldlM (R := fun a b : Nat => a = b) (S := fun w' w : World σ ω => SameWorld S1 w' w ∧ w.nodes ≠ []) (fun s' s a' a hs ha => by subst ha; exact step_follows hR hstep a' hs)
    (List.forall₂_same.mpr fun _ _ => rfl) hw v hv
  exact ⟨v', h1, h2.1⟩

end run

/-! ## Output objects -/

/-- the output objects with fewer requests: `names` are the names of the files of the loggers -/
def OutFewer (names' names : List String) (o' o : Output) : Prop :=
  (∃ ps' ps : List (String × Logger), ps'.Sublist ps ∧ ps'.map Prod.fst = names' ∧ ps.map Prod.fst = names ∧ ps'.map Prod.snd = o'.loggers ∧ ps.map Prod.snd = o.loggers) ∧
  o'.watches.Sublist o.watches ∧ o'.files.Sublist o.files

theorem mapM_pairs {α β : Type} {f : α → Except Err β} : ∀ {ps : List (String × α)} {r : List β}, (ps.map Prod.snd).mapM f = .ok r →
    ps.mapM (fun p => (f p.2).map (fun b => (p.1, b))) = .ok ((ps.map Prod.fst).zip r) := by
  intro ps
  induction ps with
  | nil => intro r hr; rfl
  | cons p ps ih =>
    intro r hr
    rw [List.map_cons, mapM_forall₂] at hr
    cases hr with
    | cons h1 h2 =>
      rw [List.mapM_cons, ih (mapM_forall₂.mpr h2), h1]
      rfl

theorem pairs_mapM {α β : Type} {f : α → Except Err β} : ∀ {ps : List (String × α)} {q : List (String × β)}, ps.mapM (fun p => (f p.2).map (fun b => (p.1, b))) = .ok q →
    (ps.map Prod.snd).mapM f = .ok (q.map Prod.snd) ∧ q.map Prod.fst = ps.map Prod.fst := by
  intro ps
  induction ps with
  | nil => intro q hq; cases hq; exact ⟨rfl, rfl⟩
  | cons p ps ih =>
    intro q hq
    rw [mapM_forall₂] at hq
    cases hq with
    | cons h1 h2 =>
      obtain ⟨a, b⟩ := ih (mapM_forall₂.mpr h2)
      cases h3 : f p.2 with
      | error e => rw [h3] at h1; cases h1
      | ok y =>
        rw [h3] at h1
        cases h1
        rw [List.map_cons, List.mapM_cons, a, h3, List.map_cons, List.map_cons, List.map_cons, b]
        exact ⟨rfl, rfl⟩

theorem loggers_follow {names' names : List String} {f : Logger → Except Err Logger} {o' o : Output} (h : OutFewer names' names o' o) :
    Follows (fun ls' ls => OutFewer names' names { o' with loggers := ls' } { o with loggers := ls }) (o'.loggers.mapM f) (o.loggers.mapM f) := by
  obtain ⟨⟨ps', ps, h1, h2, h3, h4, h5⟩, h6, h7⟩ := h
  intro ls hls
  rw [← h5] at hls
  obtain ⟨q', hq, hs⟩ := mapM_sub h1 (mapM_pairs hls)
  obtain ⟨a, b⟩ := pairs_mapM hq
  obtain ⟨a2, b2⟩ := pairs_mapM (mapM_pairs hls)
  rw [← h4]
  refine ⟨_, a, ⟨q', _, hs, b.trans h2, b2.trans h3, rfl, ?_⟩, h6, h7⟩
  rw [hls] at a2
  injection a2 with a2
  exact a2.symm

theorem watches_follow {names' names : List String} (k : Int) (m : Beam) {o' o : Output} (h : OutFewer names' names o' o) :
    Follows (OutFewer names' names) (writeWatches k m o') (writeWatches k m o) := by
  unfold writeWatches
  obtain ⟨h1, h6, h7⟩ := h
  refine Follows.bind (R := fun a b => List.Sublist a b) (fun b hb => mapM_sub (h6.filter _) hb) fun n' n hn => Follows.pure ⟨h1, h6, h7.append hn⟩

theorem start_follow {names' names : List String} (junk : Nat → ℝ) (fuel : Nat) (m t : Beam) {o' o : Output} (h : OutFewer names' names o' o) :
    Follows (OutFewer names' names) (Output.start junk fuel m t o') (Output.start junk fuel m t o) := by
  unfold Output.start
  refine (watches_follow 0 m h).bind fun a b hab => (loggers_follow hab).bind fun c d hcd => Follows.pure hcd

theorem step_follow {names' names : List String} (junk : Nat → ℝ) (fuel k : Nat) (m t : Beam) {o' o : Output} (h : OutFewer names' names o' o) :
    Follows (OutFewer names' names) (Output.step junk fuel k m t o') (Output.step junk fuel k m t o) := by
  unfold Output.step
  exact (loggers_follow h).bind fun c d hcd => watches_follow _ m hcd

/-! ## The program -/

theorem tracking_same {p' p : Lib.Parsed} (h : ParsedFewer p' p) (J : Lib.Indet) (nodes : Nat) : SameRun (Lib.tracking p' J nodes).run (Lib.tracking p J nodes).run := by
  refine ⟨rfl, ?_, ?_, rfl, rfl, rfl⟩
  · show p'.tracking.NOTS.toNat = _
    rw [h.NOTS]; rfl
  · show (fun s : List FEL => Lattice.field (p'.lattice.lattice ++ s.map (fun f : FEL => InteractionField f.Field))) = _
    rw [h.lattice]; rfl

theorem tracking_start {p' p : Lib.Parsed} (h : ParsedFewer p' p) (J : Lib.Indet) (nodes : Nat) (m t : Beam) (o' o : Output)
    (ho : OutFewer (p'.beam.logs.map Lib.LogSpec.file) (p.beam.logs.map Lib.LogSpec.file) o' o) :
    Follows (OutFewer (Lib.logFiles p') (Lib.logFiles p)) ((Lib.tracking p' J nodes).run.startOut m t o') ((Lib.tracking p J nodes).run.startOut m t o) := by
  show Follows _ ((Lib.tracking p' J nodes).startOut m t o') ((Lib.tracking p J nodes).startOut m t o)
  unfold Lib.tracking Lib.logFiles
  dsimp only
  cases hp : p.beam.probe with
  | none =>
    have : p'.beam.probe = none := by
      rcases h.probe with e | e
      · rw [e, hp]
      · exact e
    rw [this]
    simpa using start_follow J.traj J.fuel m t ho
  | some pr =>
    obtain ⟨⟨ps', ps, h1, h2, h3, h4, h5⟩, h6, h7⟩ := ho
    rcases h.probe with e | e
    · rw [e, hp]
      dsimp only
      unfold Output.startProbe
      refine (Follows.refl _).bind ?_
      rintro L _ rfl
      refine start_follow _ _ _ _ ⟨⟨ps' ++ [(pr.file, .probe L)], ps ++ [(pr.file, .probe L)], h1.append (.refl _), ?_, ?_, ?_, ?_⟩, h6, h7⟩
      · simp [h2]
      · simp [h3]
      · simp [h4]
      · simp [h5]
    · rw [e]
      dsimp only
      unfold Output.startProbe
      intro b hb
      cases hL : ProbeLog.new t (toUnsigned pr.step) (toUnsigned pr.number) with
      | error e => rw [hL] at hb; cases hb
      | ok L =>
        rw [hL] at hb
        refine start_follow _ _ _ _ (o := { o with loggers := o.loggers ++ [.probe L] }) ⟨⟨ps', ps ++ [(pr.file, .probe L)], h1.trans (List.sublist_append_left _ _), ?_, ?_, h4, ?_⟩, h6, h7⟩ b hb
        · simp [h2]
        · simp [h3]
        · simp [h5]

theorem create_follow {l' l : List Lib.LogSpec} (h : l'.Sublist l) (m : Beam) (w' w : List Watch) (hw : w'.Sublist w) :
    Follows (fun a b => OutFewer (l'.map Lib.LogSpec.file) (l.map Lib.LogSpec.file) ⟨a, w', []⟩ ⟨b, w, []⟩) (l'.mapM (Lib.LogSpec.create m)) (l.mapM (Lib.LogSpec.create m)) := by
  intro r hr
  have e : ∀ l : List Lib.LogSpec, (l.map (fun s => (s.file, s))).map Prod.snd = l := fun l => by rw [List.map_map]; exact List.map_id' _
  have e2 : ∀ l : List Lib.LogSpec, (l.map (fun s => (s.file, s))).map Prod.fst = l.map Lib.LogSpec.file := fun l => by rw [List.map_map]; rfl
  rw [← e l] at hr
  obtain ⟨q', hq, hs⟩ := mapM_sub (h.map (fun s => (s.file, s))) (mapM_pairs hr)
  obtain ⟨a, b⟩ := pairs_mapM hq
  obtain ⟨a2, b2⟩ := pairs_mapM (mapM_pairs hr)
  rw [e] at a
  refine ⟨_, a, ⟨q', _, hs, b.trans (e2 _), b2.trans (e2 _), rfl, ?_⟩, hw, .refl _⟩
  rw [hr] at a2
  injection a2 with a2
  exact a2.symm

theorem flatten_sub {α : Type} {l' l : List (List α)} (h : l'.Sublist l) : l'.flatten.Sublist l.flatten := by
  induction h with
  | slnil => exact .refl _
  | cons a _ ih => rw [List.flatten_cons]; exact ih.trans (List.sublist_append_right _ _)
  | cons_cons a _ ih => rw [List.flatten_cons, List.flatten_cons]; exact (List.Sublist.refl _).append ih

theorem observe_same (L : Lib) {w' w : World (List FEL) Output} (h : w'.nodes = w.nodes) (lattice : Lattice) (m : Beam) : L.observeSpec w' lattice m = L.observeSpec w lattice m := by
  funext spec
  unfold Lib.observeSpec observeBeam
  rw [h]

theorem finish_follow (L : Lib) {doc' doc : Xml} (hd : Fewer doc' doc) {p' p : Lib.Parsed} (h : ParsedFewer p' p) {w' w : World (List FEL) Output}
    (hw : SameWorld (OutFewer (Lib.logFiles p') (Lib.logFiles p)) w' w) :
    Follows (fun a b => List.Sublist a b) (L.finish doc' p' w') (L.finish doc p w) := by
  obtain ⟨hn, ⟨ps', ps, h1, h2, h3, h4, h5⟩, h6, h7⟩ := hw
  unfold Lib.finish
  rw [hn, fel_files hd, h.lattice]
  cases w.nodes with
  | nil => intro b hb; cases hb
  | cons root rest =>
    dsimp only
    have z : ∀ l : List (String × Logger), (l.map Prod.fst).zip (l.map Prod.snd) = l := fun l => by
      rw [List.zip_map']; exact List.map_id' _
    rw [← h2, ← h4, ← h3, ← h5, z, z]
    refine Follows.bind (R := fun a b => List.Sublist a b) (fun b hb => mapM_sub h1 hb) fun l' l hl => ?_
    refine (Follows.refl _).bind ?_
    rintro fels _ rfl
    refine (Follows.refl _).bind ?_
    rintro lat _ rfl
    rw [observe_same L hn]
    refine Follows.bind (R := fun a b => List.Sublist a b) (fun b hb => mapM_sub h.observers hb) fun o' o ho => Follows.pure ?_
    exact (((h7.map _).append hl).append (.refl _)).append (flatten_sub ho)

end Passive

/-- Requests for output do not disturb the simulation: if requests for observers, watch points, the probe or logs are removed from an input file, the program still
succeeds, and the files it writes are those it wrote before - with the same contents, in the same order - without some of them. -/
theorem C103_passive (L : Lib) (rnd : Nat → (Nat → Nat → ℝ) × (Nat → Nat → Nat → ℝ)) (J : Lib.Indet) (nodes : Nat) (doc doc' : Xml) (h : Fewer doc' doc) (files : List OutFile)
    (hr : L.program rnd J nodes doc = .ok files) : ∃ files', L.program rnd J nodes doc' = .ok files' ∧ files'.Sublist files := by
  refine (?_ : Passive.Follows (fun a b => List.Sublist a b) (L.program rnd J nodes doc') (L.program rnd J nodes doc)) files hr
  unfold Lib.program
  refine Passive.Follows.bind (Passive.Follows.mapM (R := fun a b : Nat => a = b) (S := Passive.ParsedFewer) (fun a' a ha => by subst ha; exact Passive.parse_fewer h)
    (List.forall₂_same.mpr fun _ _ => rfl)) fun ps' ps hps => ?_
  cases hps with
  | nil => intro b hb; cases hb
  | cons h1 h2 =>
    rename_i p' p qs' qs
    dsimp only
    have hm : ∀ {q' q : Lib.Parsed}, Passive.ParsedFewer q' q → Lib.masterBeam q' = Lib.masterBeam q := by
      intro q' q hq
      unfold Lib.masterBeam
      rw [hq.bunches, hq.timeStep, hq.NOTS]
    refine Passive.Follows.bind (R := fun a b : List Beam => a = b) ?_ ?_
    · intro b hb
      obtain ⟨b', hb1, hb2⟩ := Passive.Follows.mapM (f' := Lib.masterBeam) (S := fun a b : Beam => a = b) (fun a' a ha => by rw [hm ha]; exact Passive.Follows.refl _) (List.Forall₂.cons h1 h2) b hb
      exact ⟨b', hb1, List.forall₂_eq_eq_eq ▸ hb2⟩
    rintro masters _ rfl
    rw [hm h1, h1.NOTS, h1.interactions]
    refine (Passive.Follows.refl _).bind ?_
    rintro m _ rfl
    split
    · intro b hb; cases hb
    refine (Passive.Follows.refl _).bind ?_
    rintro s _ rfl
    refine Passive.Follows.bind (Passive.create_follow h1.logs m _ _ h1.watches) fun a b hab => ?_
    refine Passive.Follows.bind (Passive.run_follows (Passive.tracking_same h1 J nodes) (Passive.tracking_start h1 J nodes)
      (fun k m t o' o ho => Passive.step_follow J.traj J.fuel k m t ho) masters s hab) fun w' w hw => Passive.finish_follow L h h1 hw

namespace Lib

/-- the input `watchDoc` without one of its two watch points and without its observer -/
def fewDoc : Xml :=
  .node "" [] [.node "teufel" []
    [.node "lattice" [] [.node "background" [] [.node "E" [("x", "1")] []]],
     .node "beam" [] [.node "particle" [("gamma", "2"), ("charge", "1"), ("cmr", "1")] [.node "position" [] [], .node "momentum" [("z", "1")] []]],
     .node "tracking" [("method", "Vay"), ("delta_t", "1"), ("n", "2")] [.node "watch-sdds" [("step", "1"), ("file", "early.sdds")] []],
     .node "observer" [] []]]

noncomputable def fewParsed : Parsed :=
  { progParsed .lattice with tracking := ⟨1, 2, ⟨predefined, [⟨1, "early.sdds", .sdds⟩], []⟩⟩, observers := ⟨predefined, []⟩ }

theorem fewDoc_parse (r : (Nat → Nat → ℝ) × (Nat → Nat → Nat → ℝ)) : (exampleLib.withRandom r).parse fewDoc = .ok fewParsed := by
  have hc : ∀ env node, (∀ c ∈ node.children, c.name ≠ "calc") → (exampleLib.withRandom r).parseCalcChildren env node = env := by
    intro env node hn
    unfold parseCalcChildren
    generalize node.children = l at hn
    induction l generalizing env with
    | nil => rfl
    | cons c l ih =>
      rw [List.foldl_cons, if_neg (hn c (by simp))]
      exact ih env (fun c' hc' => hn c' (by simp [hc']))
  have e0 : ∀ env, (exampleLib.withRandom r).eval env "" = env "" := by intro env; simp [withRandom, exampleLib]
  have e1 : ∀ env, (exampleLib.withRandom r).eval env "1" = some 1 := by intro env; simp [withRandom, exampleLib]
  have e2 : ∀ env, (exampleLib.withRandom r).eval env "2" = some 2 := by intro env; simp [withRandom, exampleLib]
  have e3 : (exampleLib.withRandom r).asInt "3" = 3 := by simp [withRandom, exampleLib]
  have hpe := predefined_empty
  have h1 : toInt32 (crint 1) = .ok 1 := by simp [crint, toInt32]
  have h2 : toInt32 (crint 2) = .ok 2 := by simp [crint, toInt32]
  unfold parse fewDoc
  simp only [Xml.child, Xml.children, Xml.name, List.find?, need, bind, Except.bind, pure, Except.pure, start, beq_self_eq_true]
  rw [hc _ _ (by simp [Xml.children, Xml.name])]
  simp only [parseLattice, parseBeam, parseTracking, parseObservers, Xml.child, Xml.children, Xml.name, List.find?, need, bind, Except.bind, pure, Except.pure]
  have p1 : (exampleLib.withRandom r).latticeStep ⟨predefined, [], 0⟩ (.node "background" [] [.node "E" [("x", "1")] []]) = .ok ⟨predefined, [HomogeneousField ⟨1, 0, 0⟩ 0], 1⟩ := by
    simp [latticeStep, latticeElement, Xml.name, parseCalcChildren, Xml.children, Except.map, Lattice.addElement, optVec, Xml.child, vec, num, Xml.value, Xml.attr, Xml.attrs, e0, e1, hpe]
  have p2 : (exampleLib.withRandom r).beamStep ⟨predefined, [], [], none, 0⟩ (.node "particle" [("gamma", "2"), ("charge", "1"), ("cmr", "1")] [.node "position" [] [], .node "momentum" [("z", "1")] []])
      = .ok ⟨predefined, [singleParticle 2 1 1 0 ⟨0, 0, 0⟩ ⟨0, 0, 1⟩], [], none, 1⟩ := by
    simp [beamStep, particleEntry, Xml.name, parseCalcChildren, Xml.children, Xml.child, need, bind, Except.bind, pure, Except.pure, parseLog, optNum, vec, num, Xml.value, Xml.attr, Xml.attrs, e0, e1, e2, hpe, List.lookup]
  have p3' : ∀ t ws, (exampleLib.withRandom r).trackStep t ⟨predefined, ws, []⟩ (.node "watch-sdds" [("step", "1"), ("file", "early.sdds")] []) = .ok ⟨predefined, ws ++ [⟨1, "early.sdds", .sdds⟩], []⟩ := by
    intro t ws
    simp [trackStep, watchEntry, Xml.name, need, bind, Except.bind, pure, Except.pure, int, num, Xml.value, Xml.attr, Xml.attrs, e1, h1, List.lookup]
  simp [p1, p2, Xml.value, Xml.attr, Xml.attrs, List.lookup, int, num, e1, e2, h2, fewParsed, progParsed]
  simp [pure, Except.pure, bind, Except.bind, p3']

theorem fewDoc_fewer : Fewer fewDoc watchDoc := by
  refine ⟨_, _, rfl, rfl, .cons ⟨rfl, rfl, ?_⟩ (.cons ⟨rfl, rfl, ?_⟩ (.cons ⟨rfl, rfl, ?_⟩ (.cons ⟨rfl, rfl, ?_⟩ .nil)))⟩
  · simp [Xml.name]
  · simp only [Xml.name, if_true]
    exact ⟨true, .cons ⟨rfl, rfl, true, true, rfl⟩ .nil⟩
  · simp only [Xml.name, String.reduceEq, if_false, if_true]
    exact .skip _ (Or.inl rfl) (.keep _ .nil)
  · simp only [Xml.name, String.reduceEq, if_false, if_true]
    exact .skip _ ⟨by simp [Xml.name], by simp [Xml.children, Xml.name]⟩ .nil

/-- non-vacuity of C103: with two watch points and an observer three files are written, with one of the watch points only the file of this watch point, with the same
contents -/
example (rnd : Nat → (Nat → Nat → ℝ) × (Nat → Nat → Nat → ℝ)) (J : Indet) : ∃ a b c, exampleLib.program rnd J 3 watchDoc = .ok [a, b, c] ∧ exampleLib.program rnd J 3 fewDoc = .ok [a] ∧
    a.name = "early.sdds" ∧ b.name = "late.h5" ∧ c.name = "point.sdds" := by
  obtain ⟨fs, h⟩ := watchDoc_runs rnd J 2
  obtain ⟨p, hp, hn⟩ := C84_names exampleLib rnd J 3 (by norm_num) watchDoc fs h
  rw [watchDoc_parse] at hp
  injection hp with hp
  subst hp
  obtain ⟨fs', h', hsub⟩ := C103_passive exampleLib rnd J 3 _ _ fewDoc_fewer fs h
  obtain ⟨p', hp', hn'⟩ := C84_names exampleLib rnd J 3 (by norm_num) fewDoc fs' h'
  rw [fewDoc_parse] at hp'
  injection hp' with hp'
  subst hp'
  have hn3 : fs.map OutFile.name = ["early.sdds", "late.h5", "point.sdds"] := by
    rw [hn]; simp [watchParsed, progParsed, felFiles, watchDoc, Xml.child, Xml.children, Xml.name, List.range_succ]
  have hn1 : fs'.map OutFile.name = ["early.sdds"] := by
    rw [hn']; simp [fewParsed, progParsed, felFiles, fewDoc, Xml.child, Xml.children, Xml.name, List.range_succ]
  obtain ⟨a, fs, rfl, ha, hn3⟩ := List.map_eq_cons_iff.mp hn3
  obtain ⟨b, fs, rfl, hb, hn3⟩ := List.map_eq_cons_iff.mp hn3
  obtain ⟨c, fs, rfl, hc, hn3⟩ := List.map_eq_cons_iff.mp hn3
  obtain rfl := List.map_eq_nil_iff.mp hn3
  obtain ⟨a', fs', rfl, ha', hn1⟩ := List.map_eq_cons_iff.mp hn1
  obtain rfl := List.map_eq_nil_iff.mp hn1
  have hm : a' ∈ [a, b, c] := hsub.subset (by simp)
  simp only [List.mem_cons, List.not_mem_nil, or_false] at hm
  rcases hm with rfl | rfl | rfl
  · exact ⟨a', b, c, h, h', ha, hb, hc⟩
  · rw [hb] at ha'; simp at ha'
  · rw [hc] at ha'; simp at ha'

end Lib
end Teufel
