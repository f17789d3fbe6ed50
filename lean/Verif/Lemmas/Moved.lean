import Verif.Lemmas.Coupled
import Verif.Props.ProgramRuns
import Verif.Props.Integrate
import Verif.Props.LightCone
import Verif.Props.FEL

/-! # Particles moved through arbitrary fields -/

namespace Teufel
open Vec

/-- `a` is the particle `q` after `k` steps, each in an arbitrary field -/
def Moved (dt : ℝ) (q : Particle) (k : Nat) (a : Particle) : Prop :=
  ∃ (f0 : FieldFn) (fs : List FieldFn) (a0 : Particle), fs.length = k ∧ (q.initTrajectory q.tCur q.XCur q.PCur q.ACur).InitVay dt f0 = .ok a0 ∧ a0.steps fs = .ok a

theorem dropState_ok {r : Except (Err × Particle) Particle} {a : Particle} (h : dropState r = .ok a) : r = .ok a := by
  cases r with
  | error e => cases h
  | ok b => injection h with h; rw [h]

theorem Moved.start {dt : ℝ} {f : FieldFn} {q a : Particle} (h : dropState ((q.initTrajectory q.tCur q.XCur q.PCur q.ACur).InitVay dt f) = .ok a) : Moved dt q 0 a :=
  ⟨f, [], a, rfl, dropState_ok h, rfl⟩

theorem Moved.next {dt : ℝ} {f : FieldFn} {q a b : Particle} {k : Nat} (h : Moved dt q k a) (hs : dropState (a.StepVay f) = .ok b) : Moved dt q (k + 1) b := by
  obtain ⟨f0, fs, a0, h1, h2, h3⟩ := h
  refine ⟨f0, fs ++ [f], a0, by simp [h1], h2, ?_⟩
  rw [Particle.steps_append_ok h3]
  unfold Particle.steps
  rw [List.foldlM_cons, dropState_ok hs]
  rfl

theorem alone_moved {dt : ℝ} {f : FieldFn} {q a : Particle} {k : Nat} (h : trackAlone dt f q k = .ok a) : Moved dt q k a := by
  unfold trackAlone at h
  cases h1 : (q.initTrajectory q.tCur q.XCur q.PCur q.ACur).InitVay dt f with
  | error e => rw [h1] at h; cases h
  | ok a0 =>
  rw [h1] at h
  simp only [dropState, bind, Except.bind] at h
  cases h2 : a0.steps (List.replicate k f) with
  | error e => rw [h2] at h; cases h
  | ok a1 =>
  rw [h2] at h
  injection h with h
  subst h
  exact ⟨f, _, a0, List.length_replicate .., h1, h2⟩

/-- the particles of the coupled calculation are moved through some fields -/
theorem after_moved {ext : Lattice} {dt : ℝ} {ps qs : List Particle} {s S : List FEL} {k : Nat} (h : Coupled.after ext dt ps s k = .ok (qs, S)) :
    List.Forall₂ (fun p a => Moved dt p k a) ps qs := by
  induction k generalizing qs S with
  | zero =>
    unfold Coupled.after at h
    simp only [bind, Except.bind, pure, Except.pure] at h
    cases hq : ps.mapM (fun p => dropState ((p.initTrajectory p.tCur p.XCur p.PCur p.ACur).InitVay dt (Coupled.field ext s))) with
    | error e => rw [hq] at h; cases h
    | ok a =>
      rw [hq] at h
      simp only at h
      cases hi : s.mapM (FEL.init ⟨1, [⟨a.length, a⟩], 0, dt, .vay⟩) with
      | error e => rw [hi] at h; cases h
      | ok b =>
        rw [hi] at h
        simp only [Except.ok.injEq, Prod.mk.injEq] at h
        obtain ⟨rfl, rfl⟩ := h
        exact (forall₂_mapM hq).imp (fun _ _ hx => .start hx)
  | succ k ih =>
    unfold Coupled.after at h
    cases hb : Coupled.after ext dt ps s k with
    | error e => rw [hb] at h; cases h
    | ok r =>
      obtain ⟨a, c⟩ := r
      rw [hb] at h
      simp only [bind, Except.bind, pure, Except.pure] at h
      have ih := ih hb
      cases hq : a.mapM (fun p => dropState (p.StepVay (Coupled.field ext c))) with
      | error e => rw [hq] at h; cases h
      | ok a' =>
        rw [hq] at h
        simp only at h
        cases hi : c.mapM (FEL.step ⟨1, [⟨a'.length, a'⟩], k + 1, dt, .vay⟩) with
        | error e => rw [hi] at h; cases h
        | ok b =>
          rw [hi] at h
          simp only [Except.ok.injEq, Prod.mk.injEq] at h
          obtain ⟨rfl, rfl⟩ := h
          have hf := forall₂_mapM hq
          clear * - hf ih
          induction ih generalizing a' with
          | nil => cases hf; exact .nil
          | cons hx _ ih2 =>
            cases hf with
            | cons hy hf => exact .cons (hx.next hy) (ih2 _ hf)

/-- a moved particle has a subluminal trajectory with equidistant times -/
theorem Moved.facts {dt : ℝ} {q a : Particle} {k : Nat} (hq : q.Reachable) (hdt : 0 < dt) (h : Moved dt q k a) :
    a.Reachable ∧ a.Subluminal ∧ a.getNP = k + 1 ∧ (∀ l : Nat, l ≤ k → a.TrajTime l = .ok (q.tCur + l * dt)) ∧ a.tCur = q.tCur + k * dt := by
  obtain ⟨f, fs, a0, rfl, h1, h2⟩ := h
  have r0 : (q.initTrajectory q.tCur q.XCur q.PCur q.ACur).Reachable := pres_exec hq (.init _ _ _ _) (Or.inl rfl)
  have r1 : a0.Reachable := pres_exec r0 (.initVay dt f) (Or.inl h1)
  have r2 : ∀ (fs : List FieldFn) (b c : Particle), b.Reachable → b.steps fs = .ok c → c.Reachable := by
    intro fs
    induction fs with
    | nil => intro b c hb hc; rw [Particle.steps_nil] at hc; injection hc with hc; rw [← hc]; exact hb
    | cons g fs ih =>
      intro b c hb hc
      obtain ⟨d, d1, d2⟩ := Particle.steps_cons_ok hc
      exact ih d c (pres_exec hb (.stepVay g) (Or.inl d1)) d2
  have hsub := C13_tracked _ a0 a r0 rfl dt hdt f _ h1 h2
  have ht0 : (q.initTrajectory q.tCur q.XCur q.PCur q.ACur).TrajTime ((q.initTrajectory q.tCur q.XCur q.PCur q.ACur).getNP - 1 : Nat) = .ok q.tCur := rfl
  obtain ⟨e1, e2, _⟩ := C05_equidistant _ a0 a r0 dt f _ q.tCur ht0 h1 h2
  have hN : (q.initTrajectory q.tCur q.XCur q.PCur q.ACur).getNP = 1 := rfl
  rw [hN] at e1 e2
  have htimes : ∀ l : Nat, l ≤ fs.length → a.TrajTime l = .ok (q.tCur + l * dt) := by
    intro l hl
    have := e2 l hl
    simpa using this
  have ra : a.Reachable := r2 _ _ _ r1 h2
  refine ⟨ra, hsub.1, by omega, htimes, ?_⟩
  have hend := (Particle.steps_facts h2).2.2.2.2.2.2.2.2 (Particle.atEnd_init h1)
  have hk := get_of_TrajTime (htimes fs.length le_rfl)
  have hcons := cons_reachable ra
  have hl : a.Time.length = fs.length + 1 := by
    have := hcons.1
    simp only [Particle.getNP] at e1
    omega
  have := hend.2.1
  rw [List.getLast?_eq_getElem?, hl] at this
  simp only [Nat.add_sub_cancel] at this
  rw [hk] at this
  injection this with this
  exact this.symm

/-- a moved particle gets no farther than light -/
theorem Moved.reach {dt : ℝ} {q a : Particle} {k : Nat} (hq : q.Reachable) (hdt : 0 < dt) (h : Moved dt q k a) (l : Nat) (x : Vec)
    (hx : a.TrajPoint l = .ok x) : Vec.norm (x - q.XCur) ≤ SpeedOfLight * (l * dt) := by
  obtain ⟨ra, hs, hn, ht, _⟩ := h.facts hq hdt
  have hcons := cons_reachable ra
  have h0 : a.TrajPoint (0 : Nat) = .ok q.XCur := by
    obtain ⟨f, fs, a0, rfl, h1, h2⟩ := h
    obtain ⟨_, _, t, y, pm, EB, _, _, _, _, _, e⟩ := Particle.InitVay_ok h1
    have hX : a0.X = [q.XCur] := by rw [e]; rfl
    exact TrajPoint_of_get hcons (Particle.prefix_get (Particle.steps_facts h2).2.2.2.2.2.2.2.1.2.1 (by rw [hX]; rfl))
  induction l generalizing x with
  | zero =>
    rw [h0] at hx
    injection hx with hx
    rw [← hx]
    simp [Vec.norm]
  | succ l ih =>
    have hl : l + 1 < a.NP := by
      have := (List.getElem?_eq_some_iff.mp (get_of_TrajPoint hx)).1
      have := hcons.2.1
      omega
    have hk : l + 1 ≤ k := by simp only [Particle.getNP] at hn; omega
    obtain ⟨y, hy⟩ : ∃ y, a.X[l]? = some y := ⟨_, List.getElem?_eq_getElem (by have := hcons.2.1; omega)⟩
    have hy' := TrajPoint_of_get hcons hy
    have h1 := ih y hy'
    have h2 := hs l _ _ y x (ht l (by omega)) (ht (l + 1) hk) hy' hx
    have h3 := Vec.norm_sub_le x y q.XCur
    push_cast at h2 ⊢
    nlinarith

theorem Moved.near {dt : ℝ} {q a : Particle} {k : Nat} (hq : q.Reachable) (hdt : 0 < dt) (h : Moved dt q k a) :
    Vec.norm (a.XCur - q.XCur) ≤ SpeedOfLight * (k * dt) := by
  obtain ⟨ra, hs, hn, ht, _⟩ := h.facts hq hdt
  have hcons := cons_reachable ra
  refine h.reach hq hdt k a.XCur (TrajPoint_of_get hcons ?_)
  obtain ⟨f, fs, a0, rfl, h1, h2⟩ := h
  have hend := (Particle.steps_facts h2).2.2.2.2.2.2.2.2 (Particle.atEnd_init h1)
  have hl : a.X.length = fs.length + 1 := by
    have := hcons.2.1
    simp only [Particle.getNP] at hn
    omega
  have := hend.2.2.1
  rw [List.getLast?_eq_getElem?, hl] at this
  simpa using this

end Teufel
