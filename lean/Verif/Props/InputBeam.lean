import Verif.Spec.InputExample
import Verif.Props.InputLattice

/-!
# C60, C61 (beam section)
-/

namespace Teufel
namespace Input

theorem optCalc_eq (L : Lib) (env : Env) (el : Xml) (n : String) : L.optCalc env (el.child n) = afterChild L env el n := by
  unfold Lib.optCalc afterChild
  cases el.child n with
  | none => rfl
  | some c => exact C61_children L env c

theorem optNum_eq (L : Lib) (env : Env) (o : Option Xml) (a : String) : L.optNum env o a = (o.map (fun n => L.num env n a)).getD 0 := by
  cases o <;> rfl

theorem log_ok (L : Lib) (env : Env) (entry : Xml) (k : Nat) (freq : Bool) (log : List Lib.LogSpec) :
    L.parseLog env entry k freq = .ok log ↔ Logs L env entry k freq log := by
  unfold Lib.parseLog
  cases h : entry.child "log" with
  | none =>
    constructor
    · intro hh; cases hh; exact .absent h
    · intro hh
      cases hh with
      | absent => rfl
      | present h1 => rw [h] at h1; cases h1
  | some n =>
    simp only [bindOk, needOk, pureOk]
    have e : (if freq = true then Option.map (fun _ => L.num env n "bunching-freq") (n.attr "bunching-freq") else none) =
        (if freq = true ∧ n.attr "bunching-freq" ≠ none then some (L.num env n "bunching-freq") else none) := by
      cases freq <;> cases n.attr "bunching-freq" <;> simp
    constructor
    · rintro ⟨fn, hfn, hh⟩
      rw [e] at hh
      rw [← hh]
      exact .present h hfn
    · intro hh
      cases hh with
      | absent h1 => rw [h] at h1; cases h1
      | present h1 h2 =>
        rw [h] at h1
        cases h1
        exact ⟨_, h2, by rw [e]⟩

theorem traj_ok (L : Lib) (entry : Xml) (k : Nat) (t : List Lib.LogSpec) :
    L.parseTraj entry k = .ok t ↔ Trajs L entry k t := by
  unfold Lib.parseTraj
  cases h : entry.child "trajectories" with
  | none =>
    constructor
    · intro hh; cases hh; exact .absent h
    · intro hh
      cases hh with
      | absent => rfl
      | present h1 => rw [h] at h1; cases h1
  | some n =>
    simp only [bindOk, needOk, pureOk]
    constructor
    · rintro ⟨fn, hfn, hh⟩
      rw [← hh]
      exact .present h hfn
    · intro hh
      cases hh with
      | absent h1 => rw [h] at h1; cases h1
      | present h1 h2 =>
        rw [h] at h1
        cases h1
        exact ⟨_, h2, rfl⟩

theorem correlation_ok (L : Lib) (env : Env) (d : Xml) (c : Int × Int × ℝ) : L.correlation env d = .ok c ↔ Correlation L env d c := by
  unfold Lib.correlation
  by_cases h : d.name = "linear"
  · rw [if_pos h]
    simp only [bindOk, needOk, pureOk]
    constructor
    · rintro ⟨a1, h1, i, hi, a2, h2, j, hj, a3, h3, rfl⟩
      exact .linear h (by simp [HasAttrs, h1, h2, h3]) hi hj
    · rintro ⟨-, ha, hi, hj⟩
      obtain ⟨a1, h1⟩ := ha "indep" (by simp)
      obtain ⟨a2, h2⟩ := ha "dep" (by simp)
      obtain ⟨a3, h3⟩ := ha "factor" (by simp)
      exact ⟨a1, h1, _, hi, a2, h2, _, hj, a3, h3, rfl⟩
  · rw [if_neg h]
    constructor
    · intro hh; cases hh
    · rintro ⟨h', -⟩; exact absurd h' h

theorem mapM_forall2 {α β : Type} (f : α → Except Err β) (l : List α) : ∀ r, l.mapM f = .ok r ↔ List.Forall₂ (fun a b => f a = .ok b) l r := by
  induction l with
  | nil =>
    intro r
    simp only [List.mapM_nil, pureOk, List.forall₂_nil_left_iff]
    exact eq_comm
  | cons a l ih =>
    intro r
    simp only [List.mapM_cons, bindOk, pureOk, ih]
    constructor
    · rintro ⟨b, hb, bs, hbs, rfl⟩
      exact .cons hb hbs
    · intro h
      cases h with
      | cons hb hbs => exact ⟨_, hb, _, hbs, rfl⟩

/-- nothing but correlations may be among the correlations, so there are no definitions -/
theorem no_definitions {L : Lib} {env : Env} {n : Xml} {cs} (h : List.Forall₂ (Correlation L env) n.children cs) : definitions n = [] := by
  unfold definitions
  have : n.children.filter (fun c => c.name == "calc") = [] := by
    generalize n.children = l at h
    induction h with
    | nil => rfl
    | cons h _ ih =>
      obtain ⟨h', -⟩ := h
      simp [h', ih]
  rw [this]
  rfl

theorem correlations_ok (L : Lib) (env : Env) (entry : Xml) (r : Env × List (Int × Int × ℝ)) :
    L.parseCorrelations env entry = .ok r ↔ r.1 = env ∧ Correlations L env entry r.2 := by
  obtain ⟨env', cs⟩ := r
  unfold Lib.parseCorrelations
  cases h : entry.child "correlations" with
  | none =>
    constructor
    · intro hh; cases hh; exact ⟨rfl, .absent h⟩
    · rintro ⟨rfl, hh⟩
      dsimp only at hh ⊢
      cases hh with
      | absent => rfl
      | present h1 => rw [h] at h1; cases h1
  | some n =>
    simp only [bindOk, pureOk, mapM_forall2, correlation_ok, C61_children]
    constructor
    · rintro ⟨cs', hcs, hh⟩
      cases hh
      -- all children are correlations, so the environment is unchanged
      have hd : definitions n = [] := no_definitions hcs
      rw [hd] at hcs ⊢
      exact ⟨rfl, .present h hcs⟩
    · rintro ⟨h0, hh⟩
      subst h0
      cases hh with
      | absent h1 => rw [h] at h1; cases h1
      | present h1 h2 =>
        rw [h] at h1
        cases h1
        have hd := no_definitions h2
        rw [hd]
        exact ⟨cs, h2, rfl⟩

/-- one entry other than a definition -/
theorem entry_ok (L : Lib) (s s' : Lib.BeamState) (entry : Xml) (hn : entry.name ≠ "calc") :
    L.beamStep s entry = .ok s' ↔ ∃ bs ls ps, ReadsEntry L s.env s.bunches.length entry s'.env bs ls ps ∧
      s'.bunches = s.bunches ++ bs ∧ s'.logs = s.logs ++ ls ∧ s'.probe = ps.getLast?.or s.probe ∧ s'.count = s.count + bs.length := by
  obtain ⟨env, bunches, logs, probe, count⟩ := s
  obtain ⟨env', bunches', logs', probe', count'⟩ := s'
  unfold Lib.beamStep
  rw [if_neg hn]
  by_cases h1 : entry.name = "particle"
  · rw [if_pos h1]
    simp only [Lib.particleEntry, bindOk, needOk, pureOk, log_ok, C61_children, optNum_eq]
    constructor
    · rintro ⟨p, hp, m, hm, log, hl, hh⟩
      cases hh
      exact ⟨_, _, _, .particle h1 rfl hp hm hl, rfl, rfl, rfl, rfl⟩
    · rintro ⟨bs, ls, ps, h, e1, e2, e3, e4⟩
      cases h with
      | particle h0 he hp hm hl =>
        subst he
        subst e1 e2 e3 e4
        exact ⟨_, hp, _, hm, _, hl, rfl⟩
      | bunch h0 => rw [h1] at h0; simp at h0
      | sdds h0 => rw [h1] at h0; simp at h0
      | probe h0 => rw [h1] at h0; simp at h0
  rw [if_neg h1]
  by_cases h2 : entry.name = "bunch"
  · rw [if_pos h2]
    by_cases hneg : L.intOr entry "n" 1 < 0
    · simp only [Lib.bunchEntry, hneg, if_true]
      constructor
      · intro hh
        simp only [bindOk] at hh
        obtain ⟨_, _, _, _, _, hh, _⟩ := hh
        cases hh
      · rintro ⟨bs, ls, ps, h, -⟩
        cases h with
        | particle h0 => rw [h2] at h0; simp at h0
        | bunch h0 he1 hp he2 hm he3 hn' => omega
        | sdds h0 => rw [h2] at h0; simp at h0
        | probe h0 => rw [h2] at h0; simp at h0
    simp only [Lib.bunchEntry, hneg, if_false, bindOk, needOk, pureOk, log_ok, traj_ok, correlations_ok, C61_children, optNum_eq, optCalc_eq]
    constructor
    · rintro ⟨p, hp, m, hm, ⟨env4, cs⟩, ⟨he, hcs⟩, log, hl, traj, ht, hh⟩
      dsimp only at he hcs hl ht hh
      subst he
      cases hh
      exact ⟨_, _, _, .bunch h2 rfl hp rfl hm rfl (Int.toNat_of_nonneg (by omega)).symm hcs hl ht, rfl, by simp, rfl, rfl⟩
    · rintro ⟨bs, ls, ps, h, e1, e2, e3, e4⟩
      cases h with
      | particle h0 => rw [h2] at h0; simp at h0
      | @bunch _ _ _ _ _ _ _ _ n h0 he1 hp he2 hm he3 hn' hcs hl ht =>
        subst he1 he2 he3
        subst e1 e2 e3 e4
        refine ⟨_, hp, _, hm, (_, _), ⟨rfl, hcs⟩, _, hl, _, ht, ?_⟩
        rw [hn']; simp; rfl
      | sdds h0 => rw [h2] at h0; simp at h0
      | probe h0 => rw [h2] at h0; simp at h0
  rw [if_neg h2]
  by_cases h3 : entry.name = "SDDS"
  · rw [if_pos h3]
    simp only [Lib.sddsEntryNode, bindOk, needOk, pureOk, log_ok, correlations_ok, optCalc_eq]
    constructor
    · rintro ⟨fn, hfn, ⟨env4, cs⟩, ⟨he, hcs⟩, log, hl, hh⟩
      dsimp only at he hcs hl hh
      subst he
      cases hh
      exact ⟨_, _, _, .sdds h3 hfn rfl hcs hl, by cases entry.child "dir" <;> rfl, rfl, rfl, rfl⟩
    · rintro ⟨bs, ls, ps, h, e1, e2, e3, e4⟩
      cases h with
      | particle h0 => rw [h3] at h0; simp at h0
      | bunch h0 => rw [h3] at h0; simp at h0
      | sdds h0 hfn he hcs hl =>
        subst he
        subst e1 e2 e3 e4
        exact ⟨_, hfn, (afterChild L env entry "dir", _), ⟨rfl, hcs⟩, _, hl, by cases entry.child "dir" <;> rfl⟩
      | probe h0 => rw [h3] at h0; simp at h0
  rw [if_neg h3]
  by_cases h4 : entry.name = "probe"
  · rw [if_pos h4]
    simp only [Lib.probeEntry, bindOk, needOk, pureOk]
    constructor
    · rintro ⟨fn, hfn, hh⟩
      cases hh
      exact ⟨[], [], _, .probe h4 hfn, by simp, by simp, rfl, by simp⟩
    · rintro ⟨bs, ls, ps, h, e1, e2, e3, e4⟩
      cases h with
      | particle h0 => rw [h4] at h0; simp at h0
      | bunch h0 => rw [h4] at h0; simp at h0
      | sdds h0 => rw [h4] at h0; simp at h0
      | probe h0 hfn =>
        subst e1 e2 e3 e4
        exact ⟨_, hfn, by simp⟩
  rw [if_neg h4]
  constructor
  · intro h; cases h
  · rintro ⟨bs, ls, ps, h, -⟩
    cases h with
    | particle h0 => exact absurd h0 h1
    | bunch h0 => exact absurd h0 h2
    | sdds h0 => exact absurd h0 h3
    | probe h0 => exact absurd h0 h4

theorem log_error (L : Lib) (env : Env) (entry : Xml) (k : Nat) (freq : Bool) (e : Err) (h : L.parseLog env entry k freq = .error e) : e = .io := by
  unfold Lib.parseLog at h
  cases hc : entry.child "log" with
  | none => rw [hc] at h; cases h
  | some n =>
    rw [hc] at h
    simp only [bindErr, needErr, pureErr, and_false, exists_false, or_false] at h
    exact h.2

theorem traj_error (L : Lib) (entry : Xml) (k : Nat) (e : Err) (h : L.parseTraj entry k = .error e) : e = .io := by
  unfold Lib.parseTraj at h
  cases hc : entry.child "trajectories" with
  | none => rw [hc] at h; cases h
  | some n =>
    rw [hc] at h
    simp only [bindErr, needErr, pureErr, and_false, exists_false, or_false] at h
    exact h.2

theorem mapM_error {α β : Type} (f : α → Except Err β) (l : List α) (e : Err) (h : l.mapM f = .error e) : ∃ a ∈ l, f a = .error e := by
  induction l with
  | nil => cases h
  | cons a l ih =>
    simp only [List.mapM_cons, bindErr, pureErr, and_false, exists_false, or_false] at h
    rcases h with h | ⟨_, _, h⟩
    · exact ⟨a, .head _, h⟩
    · obtain ⟨b, hb, hf⟩ := ih h
      exact ⟨b, .tail _ hb, hf⟩

theorem correlations_error (L : Lib) (env : Env) (entry : Xml) (e : Err) (hr : Representable L entry)
    (h : L.parseCorrelations env entry = .error e) : e = .io := by
  unfold Lib.parseCorrelations at h
  cases hc : entry.child "correlations" with
  | none => rw [hc] at h; cases h
  | some n =>
    rw [hc] at h
    simp only [bindErr, pureErr, and_false, exists_false, or_false] at h
    obtain ⟨d, hd, h⟩ := mapM_error _ _ _ h
    obtain ⟨i, hi⟩ := hr.2 n hc d hd (L.parseCalcChildren env n) "indep" (by simp)
    obtain ⟨j, hj⟩ := hr.2 n hc d hd (L.parseCalcChildren env n) "dep" (by simp)
    unfold Lib.correlation at h
    by_cases hl : d.name = "linear"
    · rw [if_pos hl] at h
      simp only [bindErr, needErr, pureErr, hi, hj, and_false, exists_false, or_false, false_or, reduceCtorEq] at h
      rcases h with h | ⟨_, _, _, _, h | ⟨_, _, _, _, h⟩⟩
      · exact h.2
      · exact h.2
      · exact h.2
    · rw [if_neg hl] at h
      cases h
      rfl

/-- an entry whose numbers are in range fails only by an `IOexception` -/
theorem entry_error (L : Lib) (s : Lib.BeamState) (entry : Xml) (e : Err) (hr : Representable L entry)
    (h : L.beamStep s entry = .error e) : e = .io := by
  unfold Lib.beamStep at h
  by_cases h0 : entry.name = "calc"
  · rw [if_pos h0] at h; cases h
  rw [if_neg h0] at h
  by_cases h1 : entry.name = "particle"
  · rw [if_pos h1] at h
    simp only [Lib.particleEntry, bindErr, needErr, pureErr, and_false, exists_false, or_false] at h
    rcases h with h | ⟨_, _, h | ⟨_, _, h⟩⟩
    · exact h.2
    · exact h.2
    · exact log_error L _ _ _ _ _ h
  rw [if_neg h1] at h
  by_cases h2 : entry.name = "bunch"
  · rw [if_pos h2] at h
    have hn : ¬L.intOr entry "n" 1 < 0 := by have := hr.1 h2; omega
    simp only [Lib.bunchEntry, hn, if_false, bindErr, needErr, pureErr, and_false, exists_false, or_false] at h
    rcases h with h | ⟨_, _, h | ⟨_, _, h | ⟨_, _, h | ⟨_, _, h⟩⟩⟩⟩
    · exact h.2
    · exact h.2
    · exact correlations_error L _ _ _ hr h
    · exact log_error L _ _ _ _ _ h
    · exact traj_error L _ _ _ h
  rw [if_neg h2] at h
  by_cases h3 : entry.name = "SDDS"
  · rw [if_pos h3] at h
    simp only [Lib.sddsEntryNode, bindErr, needErr, pureErr, and_false, exists_false, or_false] at h
    rcases h with h | ⟨_, _, h | ⟨_, _, h⟩⟩
    · exact h.2
    · exact correlations_error L _ _ _ hr h
    · exact log_error L _ _ _ _ _ h
  rw [if_neg h3] at h
  by_cases h4 : entry.name = "probe"
  · rw [if_pos h4] at h
    simp only [Lib.probeEntry, bindErr, needErr, pureErr, and_false, exists_false, or_false] at h
    exact h.2
  · rw [if_neg h4] at h
    cases h
    rfl

theorem logs_fit {L : Lib} {env : Env} {entry : Xml} {k : Nat} {freq : Bool} {log} (h : Logs L env entry k freq log) :
    ∀ c, entry.child "log" = some c → HasAttrs c ["file"] := by
  intro c hc
  cases h with
  | absent h => rw [hc] at h; cases h
  | present h1 h2 =>
    rw [hc] at h1
    cases h1
    simp [HasAttrs, h2]

theorem trajs_fit {L : Lib} {entry : Xml} {k : Nat} {t} (h : Trajs L entry k t) :
    ∀ c, entry.child "trajectories" = some c → HasAttrs c ["file"] := by
  intro c hc
  cases h with
  | absent h => rw [hc] at h; cases h
  | present h1 h2 =>
    rw [hc] at h1
    cases h1
    simp [HasAttrs, h2]

theorem forall2_left {α β : Type} {R : α → β → Prop} {P : α → Prop} (hP : ∀ a b, R a b → P a) {l : List α} {r : List β}
    (h : List.Forall₂ R l r) : ∀ a ∈ l, P a := by
  induction h with
  | nil => simp
  | cons h _ ih =>
    intro a ha
    rcases List.mem_cons.1 ha with rfl | ha
    · exact hP _ _ h
    · exact ih a ha

theorem correlations_fit {L : Lib} {env : Env} {entry : Xml} {cs} (h : Correlations L env entry cs) :
    ∀ c, entry.child "correlations" = some c → ∀ d ∈ c.children, d.name = "linear" ∧ HasAttrs d ["indep", "dep", "factor"] := by
  intro c hc
  cases h with
  | absent h => rw [hc] at h; cases h
  | present h1 h2 =>
    rw [hc] at h1
    cases h1
    exact forall2_left (fun a b hab => by obtain ⟨h1, h2, -, -⟩ := hab; exact ⟨h1, h2⟩) h2

theorem entry_kind {L : Lib} {env env' : Env} {k : Nat} {entry : Xml} {bs ls ps} (h : ReadsEntry L env k entry env' bs ls ps) :
    Conforms beamRules entry := by
  cases h with
  | particle h0 _ hp hm hl =>
    refine ⟨_, .head _, ⟨h0, by simp, by simp [HasAttrs], by simp, by simp [HasAttrs, hp, hm], ?_, by simp⟩⟩
    intro p hpp
    obtain rfl := List.mem_singleton.1 hpp
    exact logs_fit hl
  | bunch h0 _ hp _ hm _ _ hcs hl ht =>
    refine ⟨_, .tail _ (.head _), ⟨h0, by simp, by simp [HasAttrs], by simp, by simp [HasAttrs, hp, hm], ?_, ?_⟩⟩
    · intro p hpp
      rcases List.mem_cons.1 hpp with rfl | hpp
      · exact logs_fit hl
      · obtain rfl := List.mem_singleton.1 hpp
        exact trajs_fit ht
    · intro p hpp
      obtain rfl := List.mem_singleton.1 hpp
      exact correlations_fit hcs
  | sdds h0 hfn _ hcs hl =>
    refine ⟨_, .tail _ (.tail _ (.head _)), ⟨h0, by simp, by simp [HasAttrs, hfn], by simp, by simp, ?_, ?_⟩⟩
    · intro p hpp
      obtain rfl := List.mem_singleton.1 hpp
      exact logs_fit hl
    · intro p hpp
      obtain rfl := List.mem_singleton.1 hpp
      exact correlations_fit hcs
  | probe h0 hfn =>
    exact ⟨_, .tail _ (.tail _ (.tail _ (.head _))), ⟨h0, by simp, by simp [HasAttrs, hfn], by simp, by simp, by simp, by simp⟩⟩

theorem logs_exist (L : Lib) (env : Env) (entry : Xml) (k : Nat) (freq : Bool)
    (h : ∀ c, entry.child "log" = some c → HasAttrs c ["file"]) : ∃ log, Logs L env entry k freq log := by
  cases hc : entry.child "log" with
  | none => exact ⟨_, .absent hc⟩
  | some c =>
    obtain ⟨v, hv⟩ := h c hc "file" (by simp)
    exact ⟨_, .present hc hv⟩

theorem trajs_exist (L : Lib) (entry : Xml) (k : Nat)
    (h : ∀ c, entry.child "trajectories" = some c → HasAttrs c ["file"]) : ∃ t, Trajs L entry k t := by
  cases hc : entry.child "trajectories" with
  | none => exact ⟨_, .absent hc⟩
  | some c =>
    obtain ⟨v, hv⟩ := h c hc "file" (by simp)
    exact ⟨_, .present hc hv⟩

theorem correlations_exist (L : Lib) (env : Env) (entry : Xml) (hr : Representable L entry)
    (h : ∀ c, entry.child "correlations" = some c → ∀ d ∈ c.children, d.name = "linear" ∧ HasAttrs d ["indep", "dep", "factor"]) :
    ∃ cs, Correlations L env entry cs := by
  cases hc : entry.child "correlations" with
  | none => exact ⟨_, .absent hc⟩
  | some c =>
    have : ∀ l : List Xml, (∀ d ∈ l, d ∈ c.children) → ∃ cs, List.Forall₂ (Correlation L env) l cs := by
      intro l
      induction l with
      | nil => exact fun _ => ⟨[], .nil⟩
      | cons d l ih =>
        intro hl
        obtain ⟨cs, hcs⟩ := ih (fun x hx => hl x (.tail _ hx))
        have hd := hl d (.head _)
        obtain ⟨i, hi⟩ := hr.2 c hc d hd env "indep" (by simp)
        obtain ⟨j, hj⟩ := hr.2 c hc d hd env "dep" (by simp)
        exact ⟨_, .cons (.linear (h c hc d hd).1 (h c hc d hd).2 hi hj) hcs⟩
    obtain ⟨cs, hcs⟩ := this c.children (fun _ hd => hd)
    exact ⟨cs, .present hc hcs⟩

theorem entry_exists (L : Lib) (env : Env) (k : Nat) (entry : Xml) (h : Conforms beamRules entry) (hr : Representable L entry) :
    ∃ env' bs ls ps, ReadsEntry L env k entry env' bs ls ps := by
  obtain ⟨r, hrr, h⟩ := h
  simp only [beamRules, List.mem_cons, List.not_mem_nil, or_false] at hrr
  have part : ∀ n as, (n, as) ∈ r.parts → ∃ c, entry.child n = some c := fun n as hn => (h.parts _ hn).imp (fun _ hc => hc.1)
  rcases hrr with rfl | rfl | rfl | rfl
  · obtain ⟨p, hp⟩ := part "position" [] (by simp)
    obtain ⟨m, hm⟩ := part "momentum" [] (by simp)
    obtain ⟨log, hl⟩ := logs_exist L (after L env (definitions entry)) entry k false (h.options ("log", ["file"]) (by simp))
    exact ⟨_, _, _, _, .particle h.tag rfl hp hm hl⟩
  · obtain ⟨p, hp⟩ := part "position" [] (by simp)
    obtain ⟨m, hm⟩ := part "momentum" [] (by simp)
    obtain ⟨log, hl⟩ := logs_exist L (after L (after L (afterChild L (after L env (definitions entry)) entry "time") (definitions p)) (definitions m))
      entry k true (h.options ("log", ["file"]) (by simp))
    obtain ⟨t, ht⟩ := trajs_exist L entry k (h.options ("trajectories", ["file"]) (by simp))
    obtain ⟨cs, hcs⟩ := correlations_exist L (after L (after L (afterChild L (after L env (definitions entry)) entry "time") (definitions p)) (definitions m))
      entry hr (h.lists ("correlations", "linear", ["indep", "dep", "factor"]) (by simp))
    exact ⟨_, _, _, _, .bunch h.tag rfl hp rfl hm rfl (Int.toNat_of_nonneg (hr.1 h.tag)).symm hcs hl ht⟩
  · obtain ⟨fn, hfn⟩ := h.attrs "file" (by simp)
    obtain ⟨log, hl⟩ := logs_exist L (afterChild L env entry "dir") entry k true (h.options ("log", ["file"]) (by simp))
    obtain ⟨cs, hcs⟩ := correlations_exist L (afterChild L env entry "dir") entry hr
      (h.lists ("correlations", "linear", ["indep", "dep", "factor"]) (by simp))
    exact ⟨_, _, _, _, .sdds h.tag hfn rfl hcs hl⟩
  · obtain ⟨fn, hfn⟩ := h.attrs "file" (by simp)
    exact ⟨_, _, _, _, .probe h.tag hfn⟩

theorem beam_loop (L : Lib) (els : List Xml) : ∀ (s s' : Lib.BeamState),
    els.foldlM L.beamStep s = .ok s' ↔
      ∃ bs ls ps, ReadsBeam L s.env s.bunches.length els s'.env bs ls ps ∧ s'.bunches = s.bunches ++ bs ∧ s'.logs = s.logs ++ ls ∧
        s'.probe = ps.getLast?.or s.probe ∧ s'.count = s.count + bs.length := by
  induction els with
  | nil =>
    intro s s'
    simp only [List.foldlM_nil, pureOk]
    constructor
    · rintro rfl
      exact ⟨[], [], [], .done, by simp, by simp, by simp, by simp⟩
    · rintro ⟨bs, ls, ps, h, h1, h2, h3, h4⟩
      obtain ⟨e, b, l, p, c⟩ := s
      obtain ⟨e', b', l', p', c'⟩ := s'
      cases h
      simp_all
  | cons el els ih =>
    intro s s'
    rw [List.foldlM_cons, bindOk]
    by_cases hn : el.name = "calc"
    · have e : L.beamStep s el = .ok { s with env := defined L s.env (el.value "var", el.value "eq") } := by
        unfold Lib.beamStep
        rw [if_pos hn, defined_eq]
      constructor
      · rintro ⟨s1, h1, h⟩
        rw [e] at h1
        cases h1
        obtain ⟨bs, ls, ps, hr, h1, h2, h3, h4⟩ := (ih _ s').1 h
        exact ⟨bs, ls, ps, .definition hn hr, h1, h2, h3, h4⟩
      · rintro ⟨bs, ls, ps, hr, h1, h2, h3, h4⟩
        cases hr with
        | definition _ hr => exact ⟨_, e, (ih _ s').2 ⟨bs, ls, ps, hr, h1, h2, h3, h4⟩⟩
        | entry hn' => exact absurd hn hn'
    · constructor
      · rintro ⟨s1, h1, h⟩
        obtain ⟨bs1, ls1, ps1, he, e1, e2, e3, e4⟩ := (entry_ok L s s1 el hn).1 h1
        obtain ⟨bs, ls, ps, hr, h1, h2, h3, h4⟩ := (ih _ s').1 h
        rw [e1, List.length_append] at hr
        refine ⟨_, _, _, .entry hn he hr, by rw [h1, e1, List.append_assoc], by rw [h2, e2, List.append_assoc], ?_, ?_⟩
        · rw [h3, e3, List.getLast?_append]
          cases ps.getLast? <;> simp
        · rw [h4, e4, List.length_append]; push_cast; ring
      · rintro ⟨bs, ls, ps, hr, h1, h2, h3, h4⟩
        cases hr with
        | definition hn' => exact absurd hn' hn
        | @entry _ _ env1 _ _ _ bs1 ls1 ps1 bs ls ps _ he hr =>
          refine ⟨⟨env1, s.bunches ++ bs1, s.logs ++ ls1, ps1.getLast?.or s.probe, s.count + bs1.length⟩,
            (entry_ok L s _ el hn).2 ⟨bs1, ls1, ps1, he, rfl, rfl, rfl, rfl⟩, (ih _ s').2 ⟨bs, ls, ps, ?_, ?_, ?_, ?_, ?_⟩⟩
          · rw [List.length_append]; exact hr
          · rw [h1, List.append_assoc]
          · rw [h2, List.append_assoc]
          · rw [h3, List.getLast?_append]
            cases ps.getLast? <;> simp
          · rw [h4, List.length_append]; push_cast; ring

/-- **C60** (beam): the section is accepted exactly if it is there and all of its entries can be read one after the other; the
bunches are created in file order and their number is returned, the loggers are those requested, and the last probe is used. -/
theorem C60_beam (L : Lib) (root : Xml) (env : Env) (s : Lib.BeamState) :
    L.parseBeam root env = .ok s ↔
      ∃ node ps, root.child "beam" = some node ∧ ReadsBeam L env 0 node.children s.env s.bunches s.logs ps ∧
        s.probe = ps.getLast? ∧ s.count = s.bunches.length := by
  unfold Lib.parseBeam
  simp only [bindOk, needOk, beam_loop]
  constructor
  · rintro ⟨node, hn, bs, ls, ps, h1, h2, h3, h4, h5⟩
    refine ⟨node, ps, hn, ?_, by simpa using h4, ?_⟩
    · simp only [List.nil_append] at h2 h3
      rw [h2, h3]
      exact h1
    · simp only [List.nil_append] at h2
      rw [h5, h2]; simp
  · rintro ⟨node, ps, hn, h1, h2, h3⟩
    exact ⟨node, hn, _, _, ps, h1, by simp, by simp, by simpa using h2, by simpa using h3⟩

/-- **C60** (beam): every entry that is read is of a known kind with its mandatory parts, and each of them except probes creates
exactly one bunch. -/
theorem C60_beam_only {L : Lib} {env env' : Env} {k : Nat} {els : List Xml} {bs ls ps} (h : ReadsBeam L env k els env' bs ls ps) :
    (∀ el ∈ els, el.name ≠ "calc" → Conforms beamRules el) ∧
    bs.length = elementCount (els.filter (fun el => el.name != "probe")) ∧ ps.length = (els.filter (fun el => el.name == "probe")).length := by
  induction h with
  | done => simp [elementCount]
  | definition hn _ ih => exact ⟨by simpa [hn] using ih.1, by simpa [elementCount, hn] using ih.2.1, by simpa [hn] using ih.2.2⟩
  | @entry env k env1 env' el els bs1 ls1 ps1 bs ls ps hn he _ ih =>
    refine ⟨?_, ?_, ?_⟩
    · intro x hx
      rcases List.mem_cons.1 hx with rfl | hx
      · exact fun _ => entry_kind he
      · exact ih.1 x hx
    · have := ih.2.1
      cases he with
      | particle h0 => simp [elementCount, h0] at this ⊢; omega
      | bunch h0 => simp [elementCount, h0] at this ⊢; omega
      | sdds h0 => simp [elementCount, h0] at this ⊢; omega
      | probe h0 => simp [elementCount, h0] at this ⊢; omega
    · have := ih.2.2
      cases he with
      | particle h0 => simp [h0] at this ⊢; omega
      | bunch h0 => simp [h0] at this ⊢; omega
      | sdds h0 => simp [h0] at this ⊢; omega
      | probe h0 => simp [h0] at this ⊢; omega

/-- **C60** (beam): a section with nothing but known entries having their mandatory parts and numbers in range is accepted. -/
theorem C60_beam_all (L : Lib) (els : List Xml) (hf : ∀ el ∈ els, el.name ≠ "calc" → Conforms beamRules el)
    (hr : ∀ el ∈ els, Representable L el) : ∀ env k, ∃ env' bs ls ps, ReadsBeam L env k els env' bs ls ps := by
  induction els with
  | nil => exact fun env k => ⟨env, [], [], [], .done⟩
  | cons el els ih =>
    intro env k
    have ih := ih (fun x hx => hf x (.tail _ hx)) (fun x hx => hr x (.tail _ hx))
    by_cases hn : el.name = "calc"
    · obtain ⟨env', bs, ls, ps, h⟩ := ih (defined L env (el.value "var", el.value "eq")) k
      exact ⟨env', bs, ls, ps, .definition hn h⟩
    · obtain ⟨env1, bs1, ls1, ps1, he⟩ := entry_exists L env k el (hf el (.head _) hn) (hr el (.head _))
      obtain ⟨env', bs, ls, ps, h⟩ := ih env1 (k + bs1.length)
      exact ⟨env', _, _, _, .entry hn he h⟩

/-- **C60** (beam): the first entry that is not of a known kind or lacks a mandatory part raises an `IOexception`, whatever follows,
provided that its numbers are in range; and so does a missing section. -/
theorem C60_beam_first (L : Lib) (root : Xml) (env : Env) :
    (root.child "beam" = none → L.parseBeam root env = .error .io) ∧
    ∀ node pre bad post env' bs ls ps, root.child "beam" = some node → node.children = pre ++ bad :: post →
      ReadsBeam L env 0 pre env' bs ls ps → bad.name ≠ "calc" → ¬Conforms beamRules bad → Representable L bad →
      L.parseBeam root env = .error .io := by
  constructor
  · intro h
    simp [Lib.parseBeam, h, need, bind, Except.bind]
  · intro node pre bad post env' bs ls ps hn hc hr hb hbad hrep
    have hpre := (beam_loop L pre ⟨env, [], [], none, 0⟩ ⟨env', bs, ls, ps.getLast?.or none, bs.length⟩).2
      ⟨bs, ls, ps, hr, by simp, by simp, rfl, by simp⟩
    unfold Lib.parseBeam
    rw [hn]
    show node.children.foldlM L.beamStep ⟨env, [], [], none, 0⟩ = _
    rw [hc]
    refine foldlM_first _ _ _ _ _ _ _ hpre ?_
    cases hs : L.beamStep ⟨env', bs, ls, ps.getLast?.or none, bs.length⟩ bad with
    | ok s' =>
      obtain ⟨_, _, _, he, -⟩ := (entry_ok L _ s' bad hb).1 hs
      exact absurd (entry_kind he) hbad
    | error e => rw [entry_error L _ _ _ hrep hs]

/-! ## Example -/

theorem exBeam_conforms : ∀ el ∈ exBeam, el.name ≠ "calc" → Conforms beamRules el := by
  intro el hel _
  simp only [exBeam, List.mem_cons, List.not_mem_nil, or_false] at hel
  rcases hel with rfl | rfl | rfl
  · exact ⟨_, .head _, ⟨rfl, by simp, by simp [HasAttrs], by simp,
      by simp [HasAttrs, Xml.child, Xml.children, Xml.name], by simp [Xml.child, Xml.children, Xml.name], by simp⟩⟩
  · exact ⟨_, .tail _ (.head _), ⟨rfl, by simp, by simp [HasAttrs], by simp,
      by simp [HasAttrs, Xml.child, Xml.children, Xml.name], by simp [HasAttrs, Xml.child, Xml.children, Xml.name, Xml.attr, Xml.attrs, List.lookup],
      by simp [Xml.child, Xml.children, Xml.name]⟩⟩
  · exact ⟨_, .tail _ (.tail _ (.tail _ (.head _))), ⟨rfl, by simp, by simp [HasAttrs, Xml.attr, Xml.attrs, List.lookup], by simp, by simp, by simp, by simp⟩⟩

theorem exBeam_representable : ∀ el ∈ exBeam, Representable exampleLib el := by
  intro el hel
  simp only [exBeam, List.mem_cons, List.not_mem_nil, or_false] at hel
  rcases hel with rfl | rfl | rfl
  · exact ⟨by simp [Xml.name], by simp [Xml.child, Xml.children, Xml.name]⟩
  · exact ⟨fun _ => (show (0 : Int) ≤ if ("3" : String) = "3" then 3 else 0 by simp), by simp [Xml.child, Xml.children, Xml.name]⟩
  · exact ⟨by simp [Xml.name], by simp [Xml.child, Xml.children]⟩

/-- the example yields two bunches and a probe -/
example (env : Env) : ∃ env' bs ls ps, ReadsBeam exampleLib env 0 exBeam env' bs ls ps ∧ bs.length = 2 ∧ ps.length = 1 := by
  obtain ⟨env', bs, ls, ps, h⟩ := C60_beam_all exampleLib exBeam exBeam_conforms exBeam_representable env 0
  exact ⟨env', bs, ls, ps, h, by rw [(C60_beam_only h).2.1]; rfl, by rw [(C60_beam_only h).2.2]; rfl⟩

/-- a bunch without momentum, one with a logger without file name, and one with a definition among its correlations -/
example : ¬Conforms beamRules (.node "bunch" [] [.node "position" [] []]) ∧
    ¬Conforms beamRules (.node "bunch" [] [.node "position" [] [], .node "momentum" [] [], .node "log" [] []]) ∧
    ¬Conforms beamRules (.node "bunch" [] [.node "position" [] [], .node "momentum" [] [], .node "correlations" [] [defn "a" "1"]]) := by
  refine ⟨?_, ?_, ?_⟩ <;> rintro ⟨r, hr, h⟩ <;> simp only [beamRules, List.mem_cons, List.not_mem_nil, or_false] at hr <;>
    rcases hr with rfl | rfl | rfl | rfl <;>
    first
    | (have h1 := h.tag; simp [Xml.name] at h1; done)
    | (have h1 := (h.parts ("momentum", []) (by simp)); simp [Xml.child, Xml.children, Xml.name] at h1; done)
    | (have h1 := (h.options ("log", ["file"]) (by simp)); simp [HasAttrs, Xml.child, Xml.children, Xml.name, Xml.attr, Xml.attrs, List.lookup] at h1; done)
    | (have h1 := (h.lists ("correlations", "linear", ["indep", "dep", "factor"]) (by simp)); simp [Xml.child, Xml.children, Xml.name, defn] at h1; done)

end Input
end Teufel
