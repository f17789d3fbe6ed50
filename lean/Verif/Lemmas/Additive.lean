import Verif.Model.Observers
import Verif.Lemmas.HybridSim

/-! # Recording is additive in the sources -/

namespace Teufel
open Vec

theorem except_map_map {ε α β γ} (x : Except ε α) (f : α → β) (g : β → γ) : (x.map f).map g = x.map (fun a => g (f a)) := by
  cases x <;> rfl

namespace FieldTrace

/-- add `g i` to sample `i` -/
noncomputable def adds (g : Nat → EMField) (tr : FieldTrace) : FieldTrace := { tr with trace := tr.trace.mapIdx (fun i f => f + g i) }

/-- the samples as a function -/
noncomputable def vals (tr : FieldTrace) : Nat → EMField := fun i => (tr.trace[i]?).getD 0

theorem adds_wf (g : Nat → EMField) {tr : FieldTrace} (h : tr.WF) : (adds g tr).WF := by
  unfold WF adds at *
  simpa using h

theorem adds_zero (tr : FieldTrace) : adds 0 tr = tr := by
  unfold adds
  congr 1
  apply List.ext_getElem?
  intro i
  rw [List.getElem?_mapIdx]
  cases tr.trace[i]? <;> simp

theorem adds_adds (g h : Nat → EMField) (tr : FieldTrace) : adds h (adds g tr) = adds (g + h) tr := by
  unfold adds
  congr 1
  apply List.ext_getElem?
  intro i
  simp only [List.getElem?_mapIdx]
  cases tr.trace[i]? <;> simp [add_assoc]

theorem adds_congr {g h : Nat → EMField} {tr : FieldTrace} (hw : tr.WF) (e : ∀ i < tr.N, g i = h i) : adds g tr = adds h tr := by
  unfold adds
  congr 1
  apply List.ext_getElem?
  intro i
  simp only [List.getElem?_mapIdx]
  cases ht : tr.trace[i]? with
  | none => rfl
  | some f =>
    have hi := (List.getElem?_eq_some_iff.mp ht).1
    rw [hw] at hi
    simp [e i hi]

theorem new_wf (t0 dt : ℝ) (n : Nat) : (new t0 dt n).WF := by simp [new, WF]

theorem vals_adds_new (g : Nat → EMField) (t0 dt : ℝ) (n i : Nat) (h : i < n) : vals (adds g (new t0 dt n)) i = g i := by
  unfold vals adds new
  simp only [List.getElem?_mapIdx, List.getElem?_replicate, if_pos h]
  simp

theorem vals_new (t0 dt : ℝ) (n : Nat) : vals (new t0 dt n) = 0 := by
  funext i
  unfold vals new
  simp only [List.getElem?_replicate]
  split <;> simp

/-- the recording `F` adds amounts to the samples which do not depend on the contents of the trace -/
def IsAdd (t0 dt : ℝ) (n : Nat) (F : FieldTrace → Except Err FieldTrace) : Prop :=
  ∃ r : Except Err (Nat → EMField), ∀ tr : FieldTrace, tr.WF → tr.t0 = t0 → tr.dt = dt → tr.N = n → F tr = r.map (fun g => adds g tr)

theorem IsAdd.spec {t0 dt : ℝ} {n : Nat} {F} (h : IsAdd t0 dt n F) (tr : FieldTrace) (hw : tr.WF) (h1 : tr.t0 = t0) (h2 : tr.dt = dt) (h3 : tr.N = n) :
    F tr = (F (new t0 dt n)).map (fun z => adds (vals z) tr) := by
  obtain ⟨r, hr⟩ := h
  rw [hr tr hw h1 h2 h3, hr (new t0 dt n) (new_wf _ _ _) rfl rfl rfl]
  cases r with
  | error e => rfl
  | ok g =>
    simp only [Except.map]
    congr 1
    apply adds_congr hw
    intro i hi
    rw [vals_adds_new g t0 dt n i (by omega)]

theorem IsAdd.id (t0 dt : ℝ) (n : Nat) : IsAdd t0 dt n (fun tr => .ok tr) := ⟨.ok 0, fun tr _ _ _ _ => by simp [Except.map, adds_zero]⟩

theorem IsAdd.error (t0 dt : ℝ) (n : Nat) (e : Err) : IsAdd t0 dt n (fun _ => .error e) := ⟨.error e, fun tr _ _ _ _ => rfl⟩

theorem IsAdd.comp {t0 dt : ℝ} {n : Nat} {F G} (hF : IsAdd t0 dt n F) (hG : IsAdd t0 dt n G) : IsAdd t0 dt n (fun tr => (F tr).bind G) := by
  obtain ⟨r, hr⟩ := hF
  obtain ⟨q, hq⟩ := hG
  refine ⟨r.bind (fun g => q.map (fun h => g + h)), ?_⟩
  intro tr hw h1 h2 h3
  simp only [hr tr hw h1 h2 h3]
  cases r with
  | error e => rfl
  | ok g =>
    simp only [Except.map, Except.bind]
    rw [hq _ (adds_wf g hw) h1 h2 h3]
    cases q with
    | error e => rfl
    | ok h => simp only [Except.map, adds_adds]

theorem IsAdd.foldlM {α} {t0 dt : ℝ} {n : Nat} (l : List α) (F : FieldTrace → α → Except Err FieldTrace)
    (h : ∀ a ∈ l, IsAdd t0 dt n (fun tr => F tr a)) : IsAdd t0 dt n (fun tr => l.foldlM F tr) := by
  induction l with
  | nil => exact IsAdd.id t0 dt n
  | cons a l ih =>
    have := IsAdd.comp (h a (by simp)) (ih (fun b hb => h b (by simp [hb])))
    exact this

theorem IsAdd.addAt (t0 dt : ℝ) (n i : Nat) (f : EMField) : IsAdd t0 dt n (fun tr => tr.addAt i f) := by
  by_cases hi : i < n
  · refine ⟨.ok (fun j => if i = j then f else 0), ?_⟩
    intro tr hw h1 h2 h3
    show tr.addAt i f = _
    unfold FieldTrace.addAt
    rw [if_neg (show ¬ i ≥ tr.N by omega)]
    have hl : i < tr.trace.length := by rw [hw]; omega
    rw [List.getElem?_eq_getElem hl]
    simp only [Except.map, adds]
    congr 2
    apply List.ext_getElem?
    intro j
    rw [List.getElem?_set, List.getElem?_mapIdx]
    by_cases hij : i = j
    · subst hij
      simp [hl]
    · rw [if_neg hij]
      cases tr.trace[j]? <;> simp [hij]
  · refine ⟨.error .io, ?_⟩
    intro tr hw h1 h2 h3
    show tr.addAt i f = _
    unfold FieldTrace.addAt
    rw [if_pos (show i ≥ tr.N by omega)]
    rfl

end FieldTrace

open FieldTrace

theorem IsAdd.addInt (t0 dt : ℝ) (n : Nat) (i : Int) (f : EMField) : IsAdd t0 dt n (fun tr => Particle.addInt tr i f) := by
  unfold Particle.addInt
  split
  · exact IsAdd.error _ _ _ _
  · exact IsAdd.addAt _ _ _ _ _

/-- recording of the field of one particle -/
theorem integrate_isAdd (p : Particle) (obs : Vec) (t0 dt : ℝ) (n : Nat) : IsAdd t0 dt n (fun tr => p.integrateFieldTrace obs tr) := by
  by_cases h1 : n < 2 ∨ p.NP < 2
  · refine ⟨.ok 0, ?_⟩
    intro tr hw e1 e2 e3
    unfold Particle.integrateFieldTrace
    simp only [e1, e2, e3]
    rcases h1 with h1 | h1
    · rw [if_pos h1]; simp [Except.map, adds_zero]
    · by_cases h2 : n < 2
      · rw [if_pos h2]; simp [Except.map, adds_zero]
      · rw [if_neg h2, if_pos h1]; simp [Except.map, adds_zero]
  · by_cases h2 : dt = 0
    · refine ⟨.error .nan, ?_⟩
      intro tr hw e1 e2 e3
      unfold Particle.integrateFieldTrace
      simp only [e1, e2, e3]
      rw [if_neg (fun h => h1 (Or.inl h)), if_neg (fun h => h1 (Or.inr h)), if_pos h2]
      rfl
    · have := IsAdd.foldlM (t0 := t0) (dt := dt) (n := n) (List.range (p.NP - 1)) (fun tr step => do
        let ts1 ← p.RetardedTime (step : Nat) obs
        let ts2 ← p.RetardedTime (step + 1 : Nat) obs
        if ts2 > t0 - dt * 0.5 ∧ ts1 < t0 + dt * ((n : ℝ) - 0.5) then do
          let f1 ← p.RetardedFieldIdx (step : Nat) obs
          let f2 ← p.RetardedFieldIdx (step + 1 : Nat) obs
          let adds ← Particle.stepAdds t0 dt n ts1 ts2 f1 f2
          adds.foldlM (fun tr a => Particle.addInt tr a.1 a.2) tr
        else .ok tr) (by
          intro step _
          cases h3 : p.RetardedTime (step : Nat) obs with
          | error e => exact IsAdd.error _ _ _ e
          | ok ts1 =>
            simp only [bind, Except.bind]
            cases h4 : p.RetardedTime (step + 1 : Nat) obs with
            | error e => exact IsAdd.error _ _ _ e
            | ok ts2 =>
              simp only
              split
              · cases h5 : p.RetardedFieldIdx (step : Nat) obs with
                | error e => exact IsAdd.error _ _ _ e
                | ok f1 =>
                  simp only
                  cases h6 : p.RetardedFieldIdx (step + 1 : Nat) obs with
                  | error e => exact IsAdd.error _ _ _ e
                  | ok f2 =>
                    simp only
                    cases h7 : Particle.stepAdds t0 dt n ts1 ts2 f1 f2 with
                    | error e => exact IsAdd.error _ _ _ e
                    | ok as =>
                      simp only
                      exact IsAdd.foldlM as _ (fun a _ => IsAdd.addInt _ _ _ _ _)
              · exact IsAdd.id _ _ _)
      obtain ⟨r, hr⟩ := this
      refine ⟨r, ?_⟩
      intro tr hw e1 e2 e3
      rw [← hr tr hw e1 e2 e3]
      show p.integrateFieldTrace obs tr = _
      unfold Particle.integrateFieldTrace
      simp only [e1, e2, e3]
      rw [if_neg (fun h => h1 (Or.inl h)), if_neg (fun h => h1 (Or.inr h)), if_neg h2]

/-- the amounts one particle adds to the samples of a trace -/
noncomputable def traceShare (obs : Vec) (t0 dt : ℝ) (n : Nat) (p : Particle) : Except Err (Nat → EMField) :=
  (p.integrateFieldTrace obs (FieldTrace.new t0 dt n)).map vals

theorem integrate_share (p : Particle) (obs : Vec) (tr : FieldTrace) (hw : tr.WF) :
    p.integrateFieldTrace obs tr = (traceShare obs tr.t0 tr.dt tr.N p).map (fun g => adds g tr) := by
  rw [(integrate_isAdd p obs tr.t0 tr.dt tr.N).spec tr hw rfl rfl rfl]
  unfold traceShare
  rw [except_map_map]

/-- the sum of shares -/
def sumM {α β} [AddCommMonoid β] (f : α → Except Err β) (l : List α) : Except Err β := (l.mapM f).map List.sum

theorem sumM_nil {α β} [AddCommMonoid β] (f : α → Except Err β) : sumM f [] = .ok 0 := rfl

theorem sumM_cons {α β} [AddCommMonoid β] (f : α → Except Err β) (a : α) (l : List α) :
    sumM f (a :: l) = (f a).bind (fun x => (sumM f l).map (fun y => x + y)) := by
  unfold sumM
  rw [List.mapM_cons]
  cases f a with
  | error e => rfl
  | ok x =>
    simp only [bind, Except.bind]
    cases l.mapM f with
    | error e => rfl
    | ok xs => simp [Except.map, pure, Except.pure]

theorem sumM_append {α β} [AddCommMonoid β] (f : α → Except Err β) (l l' : List α) :
    sumM f (l ++ l') = (sumM f l).bind (fun x => (sumM f l').map (fun y => x + y)) := by
  induction l with
  | nil =>
    rw [sumM_nil, List.nil_append]
    simp only [Except.bind, zero_add]
    cases sumM f l' <;> rfl
  | cons a l ih =>
    rw [List.cons_append, sumM_cons, sumM_cons, ih]
    cases f a with
    | error e => rfl
    | ok x =>
      cases sumM f l with
      | error e => rfl
      | ok y =>
        cases sumM f l' with
        | error e => rfl
        | ok z => simp [Except.map, Except.bind, add_assoc]

theorem sumM_flatten {α β} [AddCommMonoid β] (f : α → Except Err β) (ls : List (List α)) : sumM f ls.flatten = sumM (sumM f) ls := by
  induction ls with
  | nil => rfl
  | cons l ls ih => rw [List.flatten_cons, sumM_append, sumM_cons, ih]

/-- recording of the field of many particles -/
theorem fold_share (ps : List Particle) (obs : Vec) (tr : FieldTrace) (hw : tr.WF) :
    ps.foldlM (fun (tr : FieldTrace) (p : Particle) => p.integrateFieldTrace obs tr) tr
      = (sumM (traceShare obs tr.t0 tr.dt tr.N) ps).map (fun g => adds g tr) := by
  induction ps generalizing tr with
  | nil => simp [sumM_nil, Except.map, adds_zero, pure, Except.pure]
  | cons p ps ih =>
    rw [List.foldlM_cons, sumM_cons, integrate_share p obs tr hw]
    cases traceShare obs tr.t0 tr.dt tr.N p with
    | error e => rfl
    | ok g =>
      simp only [Except.map, bind, Except.bind]
      rw [ih (adds g tr) (adds_wf g hw)]
      show Except.map _ (sumM (traceShare obs tr.t0 tr.dt tr.N) ps) = _
      cases sumM (traceShare obs tr.t0 tr.dt tr.N) ps with
      | error e => rfl
      | ok h => simp only [Except.map, adds_adds]

/-- the counters of a beam agree with its contents -/
def Beam.Sized (b : Beam) : Prop := b.NOB = b.B.length ∧ ∀ bu ∈ b.B, bu.NOP = bu.P.length

theorem Beam.WF.sized {b : Beam} (h : b.WF) : b.Sized := ⟨h.1, fun bu hb => (h.2 bu hb).1⟩

theorem foldlM_flatMap {α β γ : Type} (l : List α) (g : α → List β) (f : γ → β → Except Err γ) (c : γ) :
    (l.flatMap g).foldlM f c = l.foldlM (fun (c : γ) (a : α) => (g a).foldlM f c) c := by
  induction l generalizing c with
  | nil => rfl
  | cons a l ih =>
    rw [List.flatMap_cons, List.foldlM_append, List.foldlM_cons]
    congr 1
    funext c
    exact ih c

theorem foldlM_congr_mem {α γ : Type} (l : List α) (f g : γ → α → Except Err γ) (h : ∀ a ∈ l, ∀ c, f c a = g c a) (c : γ) : l.foldlM f c = l.foldlM g c := by
  induction l generalizing c with
  | nil => rfl
  | cons a l ih =>
    rw [List.foldlM_cons, List.foldlM_cons, h a (by simp)]
    congr 1
    funext c
    exact ih (fun b hb => h b (by simp [hb])) c

theorem beam_trace {b : Beam} (h : b.Sized) (obs : Vec) (tr : FieldTrace) (hw : tr.WF) :
    b.integrateFieldTrace obs tr = (sumM (traceShare obs tr.t0 tr.dt tr.N) b.all).map (fun g => adds g tr) := by
  unfold Beam.integrateFieldTrace
  rw [visited_all h.1, ← fold_share b.all obs tr hw]
  show b.B.foldlM _ tr = _
  unfold Beam.all
  rw [foldlM_flatMap]
  apply foldlM_congr_mem
  intro bu hb c
  unfold Bunch.integrateFieldTrace
  rw [visited_all (h.2 bu hb)]
  rfl

theorem foldlM_sumM {α β} [AddCommMonoid β] (f : α → Except Err β) (l : List α) (c : β) :
    l.foldlM (fun (s : β) (a : α) => (f a).map (fun x => s + x)) c = (sumM f l).map (fun x => c + x) := by
  induction l generalizing c with
  | nil => simp [sumM_nil, Except.map, pure, Except.pure]
  | cons a l ih =>
    rw [List.foldlM_cons, sumM_cons]
    cases f a with
    | error e => rfl
    | ok x =>
      simp only [Except.map, bind, Except.bind]
      refine (ih (c + x)).trans ?_
      cases sumM f l with
      | error e => rfl
      | ok y => simp [Except.map, add_assoc]

theorem sumM_congr {α β} [AddCommMonoid β] (l : List α) (f g : α → Except Err β) (h : ∀ a ∈ l, f a = g a) : sumM f l = sumM g l := by
  unfold sumM
  rw [mapM_congr_mem l f g h]

theorem sumM_flatMap {α β γ} [AddCommMonoid β] (f : α → Except Err β) (g : γ → List α) (l : List γ) :
    sumM f (l.flatMap g) = sumM (fun c => sumM f (g c)) l := by
  induction l with
  | nil => rfl
  | cons a l ih => rw [List.flatMap_cons, sumM_append, sumM_cons, ih]

theorem beam_retarded {b : Beam} (h : b.Sized) (t : ℝ) (X : Vec) :
    b.RetardedField t X = sumM (fun p : Particle => p.RetardedFieldAt t X) b.all := by
  have hb : ∀ bu ∈ b.B, Bunch.RetardedField bu t X = sumM (fun p : Particle => p.RetardedFieldAt t X) bu.P := by
    intro bu hb
    unfold Bunch.RetardedField
    rw [visited_all (h.2 bu hb)]
    show bu.P.foldlM _ 0 = _
    rw [foldlM_sumM]
    simp only [zero_add]
    cases sumM (fun p : Particle => p.RetardedFieldAt t X) bu.P <;> rfl
  unfold Beam.RetardedField
  rw [visited_all h.1]
  show b.B.foldlM _ 0 = _
  rw [foldlM_sumM, sumM_congr _ _ _ hb]
  unfold Beam.all
  rw [sumM_flatMap]
  simp only [zero_add]
  generalize sumM (fun c : Bunch => sumM (fun p : Particle => p.RetardedFieldAt t X) c.P) b.B = x
  cases x <;> rfl

end Teufel
