import Verif.Spec.BeamOps
import Verif.Lemmas.Particle
import Verif.Lemmas.Distribution

namespace Teufel
open Vec

/-- helper invariant of bunches -/
def Bunch.WF (b : Bunch) : Prop := b.NOP = b.P.length ∧ ∀ p ∈ b.P, p.Reachable

/-- helper invariant of beams -/
def Beam.WF (b : Beam) : Prop := b.NOB = b.B.length ∧ ∀ bu ∈ b.B, bu.WF

theorem Particle.Reachable.exec {p : Particle} (h : p.Reachable) (o : POp) : (o.exec p).Reachable := by
  obtain ⟨s, ops, hs, rfl⟩ := h
  exact ⟨s, ops ++ [o], hs, by simp⟩

theorem reachable_new (q m : ℝ) : (Particle.new q m).Reachable := ⟨_, [], Or.inl ⟨q, m, rfl⟩, rfl⟩

theorem visited_all {α} {n : Nat} {l : List α} (h : n = l.length) : visited n l = .ok l := by
  simp [visited, h]

theorem forEach_outcome {α} {Q : α → Prop} {f : α → Except (Err × α) α}
    (hf : ∀ a, Q a → ∀ a', (f a = .ok a' ∨ ∃ e, f a = .error (e, a')) → Q a') :
    ∀ (n : Nat) (l : List α), n = l.length → (∀ a ∈ l, Q a) →
      ∀ l', (forEach f n l = .ok l' ∨ ∃ e, forEach f n l = .error (e, l')) → l'.length = l.length ∧ ∀ a ∈ l', Q a := by
  intro n l
  induction l generalizing n with
  | nil =>
    intro h _ l' h'
    simp at h
    subst h
    rcases h' with h' | ⟨e, h'⟩
    · simp only [forEach] at h'
      injection h' with h'; subst h'; simp
    · simp [forEach] at h'
  | cons a l ih =>
    intro h hQ l' h'
    simp at h
    subst h
    have ha := hQ a (by simp)
    have hl : ∀ b ∈ l, Q b := fun b hb => hQ b (by simp [hb])
    simp only [forEach] at h'
    cases hfa : f a with
    | error e =>
      obtain ⟨e, a'⟩ := e
      simp only [hfa] at h'
      have ha' := hf a ha a' (Or.inr ⟨e, hfa⟩)
      rcases h' with h' | ⟨e', h'⟩
      · cases h'
      · injection h' with h'; injection h' with _ h'; subst h'
        exact ⟨by simp, by simpa [ha'] using hl⟩
    | ok a' =>
      simp only [hfa] at h'
      have ha' := hf a ha a' (Or.inl hfa)
      cases hr : forEach f l.length l with
      | ok ps =>
        simp only [hr] at h'
        have := ih l.length rfl hl ps (Or.inl hr)
        rcases h' with h' | ⟨e', h'⟩
        · injection h' with h'; subst h'
          exact ⟨by simp [this.1], by simpa [ha'] using this.2⟩
        · cases h'
      | error e =>
        obtain ⟨e, ps⟩ := e
        simp only [hr] at h'
        have := ih l.length rfl hl ps (Or.inr ⟨e, hr⟩)
        rcases h' with h' | ⟨e', h'⟩
        · cases h'
        · injection h' with h'; injection h' with _ h'; subst h'
          exact ⟨by simp [this.1], by simpa [ha'] using this.2⟩

theorem forEach_ok {α} (f : α → Except (Err × α) α) (g : α → α) :
    ∀ (l : List α), (∀ a ∈ l, f a = .ok (g a)) → forEach f l.length l = .ok (l.map g) := by
  intro l
  induction l with
  | nil => intro _; rfl
  | cons a l ih =>
    intro h
    simp only [List.length_cons, forEach, h a (by simp), ih (fun b hb => h b (by simp [hb])), List.map_cons]

theorem Bunch.wf_wrap {b b' : Bunch} (h : b.WF) {f : Particle → PRes}
    (hf : ∀ p, p.Reachable → ∀ p', (f p = .ok p' ∨ ∃ e, f p = .error (e, p')) → p'.Reachable)
    (ho : Outcome (b.wrap (forEach f b.NOP b.P)) b') : b'.WF := by
  have key := forEach_outcome hf b.NOP b.P h.1 h.2
  cases hr : forEach f b.NOP b.P with
  | ok ps =>
    obtain ⟨k1, k2⟩ := key ps (Or.inl hr)
    rw [hr] at ho
    simp only [Bunch.wrap, Outcome] at ho
    rcases ho with ho | ⟨e, -, ho⟩
    · injection ho with ho; subst ho; exact ⟨by rw [h.1]; exact k1.symm, k2⟩
    · cases ho
  | error e =>
    obtain ⟨e, ps⟩ := e
    obtain ⟨k1, k2⟩ := key ps (Or.inr ⟨e, hr⟩)
    rw [hr] at ho
    simp only [Bunch.wrap, Outcome] at ho
    rcases ho with ho | ⟨e, -, ho⟩
    · cases ho
    · injection ho with ho; injection ho with _ ho; subst ho; exact ⟨by rw [h.1]; exact k1.symm, k2⟩

theorem pres_exec {p p' : Particle} (hp : p.Reachable) (o : POp) (h : o.result p = .ok p' ∨ ∃ e, o.result p = .error (e, p')) :
    p'.Reachable := by
  have := hp.exec o
  unfold POp.exec at this
  rcases h with h | ⟨e, h⟩ <;> rw [h] at this <;> exact this

theorem Bunch.wf_clear {b b' : Bunch} (h : b.WF) (ho : Outcome b.clearTrajectories b') : b'.WF :=
  Bunch.wf_wrap h (fun _ hp _ h' => pres_exec hp .clear h') ho

theorem Bunch.wf_preAllocate {b b' : Bunch} (h : b.WF) (n : Int) (ho : Outcome (b.preAllocate n) b') : b'.WF :=
  Bunch.wf_wrap h (fun _ hp _ h' => pres_exec hp (.preAllocate n) h') ho

theorem Bunch.wf_init {b b' : Bunch} (h : b.WF) (dt : ℝ) (f : FieldFn) (ho : Outcome (b.InitVay dt f) b') : b'.WF :=
  Bunch.wf_wrap h (fun _ hp _ h' => pres_exec hp (.initVay dt f) h') ho

theorem Bunch.wf_step {b b' : Bunch} (h : b.WF) (f : FieldFn) (ho : Outcome (b.StepVay f) b') : b'.WF :=
  Bunch.wf_wrap h (fun _ hp _ h' => pres_exec hp (.stepVay f) h') ho

theorem corrParticle_reachable {i j : Int} {f m : ℝ} {p p' : Particle} (hp : p.Reachable)
    (h : Bunch.corrParticle i j f m p = .ok p' ∨ ∃ e, Bunch.corrParticle i j f m p = .error (e, p')) : p'.Reachable := by
  unfold Bunch.corrParticle at h
  split at h
  · rcases h with h | ⟨e, h⟩
    · injection h with h; subst h; exact hp.exec (.init _ _ _ _)
    · cases h
  all_goals
    rcases h with h | ⟨e, h⟩
    · cases h
    · injection h with h; injection h with _ h; subst h; exact hp

theorem Bunch.wf_corr {b b' : Bunch} (h : b.WF) (i j : Int) (f : ℝ) (ho : Outcome (b.addCorrelation i j f) b') : b'.WF := by
  unfold Bunch.addCorrelation at ho
  split_ifs at ho with hc
  · cases hm : b.corrMean i with
    | error e =>
      simp only [hm, Outcome] at ho
      rcases ho with ho | ⟨e, -, ho⟩
      · cases ho
      · injection ho with ho; injection ho with _ ho; subst ho; exact h
    | ok m =>
      simp only [hm] at ho
      exact Bunch.wf_wrap h (fun _ hp _ h' => corrParticle_reachable hp h') ho
  · rcases ho with ho | ⟨e, -, ho⟩
    · injection ho with ho; subst ho; exact h
    · cases ho

theorem Bunch.setLoop_wf {n : Nat} : ∀ {ps ps' : List Particle} {buf rest : List ℝ}, (∀ p ∈ ps, p.Reachable) →
    Bunch.setLoop n ps buf = .ok (ps', rest) → ps'.length = ps.length ∧ ∀ p ∈ ps', p.Reachable := by
  induction n with
  | zero =>
    intro ps ps' buf rest h e
    simp only [Bunch.setLoop] at e
    injection e with e
    injection e with e1 e2
    subst e1; exact ⟨rfl, h⟩
  | succ n ih =>
    intro ps ps' buf rest h e
    unfold Bunch.setLoop at e
    split at e
    · exfalso; omega
    · rename_i n' p ps t x y z px py pz ax ay az rest0 heq
      injection heq with heq
      subst heq
      cases hr : Bunch.setLoop n ps rest0 with
      | error er => rw [hr] at e; cases e
      | ok r =>
        obtain ⟨ps1, rest1⟩ := r
        rw [hr] at e
        injection e with e
        injection e with e1 e2
        subst e1
        have := ih (fun q hq => h q (by simp [hq])) hr
        refine ⟨by simp [this.1], ?_⟩
        intro q hq
        rcases List.mem_cons.mp hq with rfl | hq
        · exact ((h p (by simp)).exec (.setCurrent t ⟨x, y, z⟩ ⟨px, py, pz⟩ ⟨ax, ay, az⟩)).exec (.store t ⟨x, y, z⟩ ⟨px, py, pz⟩ ⟨ax, ay, az⟩)
        · exact this.2 q hq
    · cases e

theorem Bunch.wf_setStep {b b' : Bunch} {buf rest : List ℝ} (h : b.WF) (e : b.setStepFromBuffer buf = .ok (b', rest)) : b'.WF := by
  unfold Bunch.setStepFromBuffer at e
  cases hr : Bunch.setLoop b.NOP b.P buf with
  | error er => rw [hr] at e; cases e
  | ok r =>
    obtain ⟨ps, rest'⟩ := r
    rw [hr] at e
    injection e with e
    injection e with e1 e2
    subst e1
    have := Bunch.setLoop_wf h.2 hr
    exact ⟨by rw [h.1]; exact this.1.symm, this.2⟩

theorem mapM_except_length {α β} {f : α → Except Err β} {l : List α} {l' : List β} (h : l.mapM f = .ok l') :
    l'.length = l.length ∧ ∀ b ∈ l', ∃ a ∈ l, f a = .ok b := by
  induction l generalizing l' with
  | nil =>
    simp only [List.mapM_nil] at h
    injection h with h; subst h; simp
  | cons a l ih =>
    rw [List.mapM_cons] at h
    cases ha : f a with
    | error e => rw [ha] at h; cases h
    | ok b =>
      rw [ha] at h
      cases hl : l.mapM f with
      | error e => rw [hl] at h; cases h
      | ok bs =>
        rw [hl] at h
        injection h with h
        subst h
        have := ih hl
        refine ⟨by simp [this.1], ?_⟩
        intro c hc
        rcases List.mem_cons.mp hc with rfl | hc
        · exact ⟨a, by simp, ha⟩
        · obtain ⟨d, hd, e⟩ := this.2 c hc
          exact ⟨d, by simp [hd], e⟩

theorem distParticle_reachable {d : Distribution} {t : ℝ} {x p : Vec} {q m : ℝ} {i : Nat} {pt : Particle}
    (h : Bunch.distParticle d t x p q m i = .ok pt) : pt.Reachable := by
  unfold Bunch.distParticle at h
  cases h6 : d.getCoordinate i 6 with
  | error e => rw [h6] at h; cases h
  | ok v6 =>
  cases h0 : d.getCoordinate i 0 with
  | error e => rw [h6, h0] at h; cases h
  | ok v0 =>
  cases h1 : d.getCoordinate i 1 with
  | error e => rw [h6, h0, h1] at h; cases h
  | ok v1 =>
  cases h2 : d.getCoordinate i 2 with
  | error e => rw [h6, h0, h1, h2] at h; cases h
  | ok v2 =>
  cases h3 : d.getCoordinate i 3 with
  | error e => rw [h6, h0, h1, h2, h3] at h; cases h
  | ok v3 =>
  cases h4 : d.getCoordinate i 4 with
  | error e => rw [h6, h0, h1, h2, h3, h4] at h; cases h
  | ok v4 =>
  cases h5 : d.getCoordinate i 5 with
  | error e => rw [h6, h0, h1, h2, h3, h4, h5] at h; cases h
  | ok v5 =>
    rw [h6, h0, h1, h2, h3, h4, h5] at h
    injection h with h
    subst h
    exact (reachable_new q m).exec (.init _ _ _ _)

theorem Bunch.wf_ofDist {b : Bunch} {d : Distribution} {t : ℝ} {x p : Vec} {q m : ℝ} (h : Bunch.ofDist d t x p q m = .ok b) : b.WF := by
  unfold Bunch.ofDist at h
  cases hr : (List.range d.NOP).mapM (Bunch.distParticle d t x p q m) with
  | error e => rw [hr] at h; cases h
  | ok ps =>
    rw [hr] at h
    injection h with h
    subst h
    have := mapM_except_length hr
    refine ⟨by simpa using this.1.symm, ?_⟩
    intro pt hpt
    obtain ⟨i, _, hi⟩ := this.2 pt hpt
    exact distParticle_reachable hi

theorem Bunch.wf_reachable {b : Bunch} (h : b.Reachable) : b.WF := by
  induction h with
  | empty => exact ⟨rfl, by simp [Bunch.empty]⟩
  | ofCount N q m =>
    refine ⟨by simp [Bunch.ofCount], ?_⟩
    intro p hp
    simp only [Bunch.ofCount, List.mem_replicate] at hp
    rw [hp.2]; exact reachable_new q m
  | copy hb e ih =>
    rename_i b b'
    unfold Bunch.copy at e
    rw [visited_all ih.1] at e
    injection e with e
    subst e
    refine ⟨by simp [ih.1], ?_⟩
    intro p hp
    simp only [List.mem_map] at hp
    obtain ⟨p0, h0, rfl⟩ := hp
    exact (ih.2 p0 h0).exec .copy
  | ofDist d t x p q m e => exact Bunch.wf_ofDist e
  | Add p hb hp ih =>
    refine ⟨by simp [Bunch.Add, ih.1], ?_⟩
    intro q hq
    simp only [Bunch.Add, List.mem_append, List.mem_singleton] at hq
    rcases hq with hq | rfl
    · exact ih.2 q hq
    · exact hp
  | replace i p hb hp e ih =>
    unfold Bunch.replaceParticle at e
    split_ifs at e with hi
    · rw [updateAt_ok (by have := ih.1; omega)] at e
      injection e with e
      subst e
      refine ⟨by simp [ih.1], ?_⟩
      intro q hq
      rcases List.mem_or_eq_of_mem_set hq with hq | rfl
      · exact ih.2 q hq
      · exact hp
    · injection e with e; subst e; exact ih
  | corr i j f _ e ih => exact Bunch.wf_corr ih i j f e
  | clear _ e ih => exact Bunch.wf_clear ih e
  | preAllocate n _ e ih => exact Bunch.wf_preAllocate ih n e
  | initVay dt f _ e ih => exact Bunch.wf_init ih dt f e
  | stepVay f _ e ih => exact Bunch.wf_step ih f e
  | setStep buf rest _ e ih => exact Bunch.wf_setStep ih e

theorem Beam.wf_wrap {b b' : Beam} (h : b.WF) {f : Bunch → BRes} {c : Beam} (hc : c.NOB = b.NOB)
    (hf : ∀ p, Bunch.WF p → ∀ p', (f p = .ok p' ∨ ∃ e, f p = .error (e, p')) → Bunch.WF p')
    (ho : Outcome (c.wrap (forEach f b.NOB b.B)) b') : b'.WF := by
  have key := forEach_outcome hf b.NOB b.B h.1 h.2
  cases hr : forEach f b.NOB b.B with
  | ok ps =>
    obtain ⟨k1, k2⟩ := key ps (Or.inl hr)
    rw [hr] at ho
    simp only [Beam.wrap, Outcome] at ho
    rcases ho with ho | ⟨e, -, ho⟩
    · injection ho with ho; subst ho; exact ⟨by show c.NOB = _; rw [hc, h.1]; exact k1.symm, k2⟩
    · cases ho
  | error e =>
    obtain ⟨e, ps⟩ := e
    obtain ⟨k1, k2⟩ := key ps (Or.inr ⟨e, hr⟩)
    rw [hr] at ho
    simp only [Beam.wrap, Outcome] at ho
    rcases ho with ho | ⟨e, -, ho⟩
    · cases ho
    · injection ho with ho; injection ho with _ ho; subst ho; exact ⟨by show c.NOB = _; rw [hc, h.1]; exact k1.symm, k2⟩

theorem Bunch.wf_wrap' {b b' : Bunch} (h : b.WF) {f : Particle → PRes}
    (hf : ∀ p, p.Reachable → ∀ p', (f p = .ok p' ∨ ∃ e, f p = .error (e, p')) → p'.Reachable)
    (ho : b.wrap (forEach f b.NOP b.P) = .ok b' ∨ ∃ e, b.wrap (forEach f b.NOP b.P) = .error (e, b')) : b'.WF := by
  have key := forEach_outcome hf b.NOP b.P h.1 h.2
  cases hr : forEach f b.NOP b.P with
  | ok ps =>
    obtain ⟨k1, k2⟩ := key ps (Or.inl hr)
    rw [hr] at ho
    simp only [Bunch.wrap] at ho
    rcases ho with ho | ⟨e, ho⟩
    · injection ho with ho; subst ho; exact ⟨by rw [h.1]; exact k1.symm, k2⟩
    · cases ho
  | error e =>
    obtain ⟨e, ps⟩ := e
    obtain ⟨k1, k2⟩ := key ps (Or.inr ⟨e, hr⟩)
    rw [hr] at ho
    simp only [Bunch.wrap] at ho
    rcases ho with ho | ⟨e, ho⟩
    · cases ho
    · injection ho with ho; injection ho with _ ho; subst ho; exact ⟨by rw [h.1]; exact k1.symm, k2⟩

theorem Beam.setLoop_wf {n : Nat} : ∀ {bs bs' : List Bunch} {buf rest : List ℝ}, (∀ p ∈ bs, Bunch.WF p) →
    Beam.setLoop n bs buf = .ok (bs', rest) → bs'.length = bs.length ∧ ∀ p ∈ bs', Bunch.WF p := by
  induction n with
  | zero =>
    intro ps ps' buf rest h e
    simp only [Beam.setLoop] at e
    injection e with e
    injection e with e1 e2
    subst e1; exact ⟨rfl, h⟩
  | succ n ih =>
    intro ps ps' buf rest h e
    cases ps with
    | nil => simp [Beam.setLoop] at e
    | cons b bs =>
      simp only [Beam.setLoop] at e
      cases hb : b.setStepFromBuffer buf with
      | error er => rw [hb] at e; cases e
      | ok r =>
        obtain ⟨b1, rest1⟩ := r
        rw [hb] at e
        cases hr : Beam.setLoop n bs rest1 with
        | error er => simp only [bind, Except.bind, hr] at e; cases e
        | ok r =>
          obtain ⟨bs1, rest2⟩ := r
          simp only [bind, Except.bind, hr] at e
          injection e with e
          injection e with e1 e2
          subst e1
          have := ih (fun q hq => h q (by simp [hq])) hr
          refine ⟨by simp [this.1], ?_⟩
          intro q hq
          rcases List.mem_cons.mp hq with rfl | hq
          · exact Bunch.wf_setStep (h b (by simp)) hb
          · exact this.2 q hq

theorem Beam.wf_setStep {b b' : Beam} {buf : List ℝ} (h : b.WF) (e : b.setStepFromBuffer buf = .ok b') : b'.WF := by
  unfold Beam.setStepFromBuffer at e
  cases hr : Beam.setLoop b.NOB b.B buf with
  | error er => rw [hr] at e; cases e
  | ok r =>
    obtain ⟨ps, rest'⟩ := r
    rw [hr] at e
    injection e with e
    subst e
    have := Beam.setLoop_wf h.2 hr
    exact ⟨by show b.NOB = _; rw [h.1]; exact this.1.symm, this.2⟩

theorem Beam.wf_init {b b' : Beam} (h : b.WF) (f : FieldFn) (ho : Outcome (b.InitVay f) b') : b'.WF :=
  Beam.wf_wrap (c := { b with NOTS := 0 }) h rfl (fun _ hp _ h' => Bunch.wf_wrap' hp (fun _ hp _ h' => pres_exec hp (.initVay b.dt f) h') h') ho

theorem Beam.wf_step {b b' : Beam} (h : b.WF) (f : FieldFn) (ho : Outcome (b.StepVay f) b') : b'.WF :=
  Beam.wf_wrap (c := b) h rfl (fun _ hp _ h' => Bunch.wf_wrap' hp (fun _ hp _ h' => pres_exec hp (.stepVay f) h') h') ho

theorem Beam.wf_reachable {b : Beam} (h : b.Reachable) : b.WF := by
  induction h with
  | empty => exact ⟨rfl, by simp [Beam.empty]⟩
  | Add bu _ hbu ih =>
    refine ⟨by simp [Beam.Add, ih.1], ?_⟩
    intro q hq
    simp only [Beam.Add, List.mem_append, List.mem_singleton] at hq
    rcases hq with hq | rfl
    · exact ih.2 q hq
    · exact Bunch.wf_reachable hbu
  | clear _ ih => exact ⟨rfl, by simp [Beam.clear]⟩
  | @clearTrajectories b b' _ e ih =>
    exact Beam.wf_wrap (c := { b with NOTS := 0 }) ih rfl (fun _ hp _ h' => Bunch.wf_wrap' hp (fun _ hp _ h' => pres_exec hp .clear h') h') e
  | preAllocate n _ e ih =>
    exact Beam.wf_wrap ih rfl (fun _ hp _ h' => Bunch.wf_wrap' hp (fun _ hp _ h' => pres_exec hp (.preAllocate n) h') h') e
  | setTimeStep dt _ ih => exact ih
  | setTracking t _ ih => exact ih
  | setNOTS n _ ih => exact ih
  | @setup b b' f _ e ih =>
    unfold Beam.setupTracking at e
    split at e
    · rcases e with e | ⟨er, -, e⟩ <;> cases e; exact ih
    · rcases e with e | ⟨er, -, e⟩ <;> cases e; exact ih
    · exact Beam.wf_init ih f e
  | @doStep b b' f _ e ih =>
    unfold Beam.doStep at e
    dsimp only at e
    have ih' : Beam.WF { b with NOTS := b.NOTS + 1 } := ih
    split at e
    · rcases e with e | ⟨er, -, e⟩ <;> cases e; exact ih'
    · rcases e with e | ⟨er, -, e⟩ <;> cases e; exact ih'
    · exact Beam.wf_step ih' f e
  | setStep buf _ e ih => exact Beam.wf_setStep ih e

end Teufel
