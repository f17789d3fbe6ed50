import Verif.Spec.Scaling
import Verif.Lemmas.Recharge
import Verif.Lemmas.FrameObs
import Verif.Props.Recharge

/-! # Lemmas on scaled beams and interactions -/

namespace Teufel
open Vec

namespace FEL
variable (d : ℝ)

theorem cellAt_mul (l : List ℝ) (i : Int) : cellAt (l.map (· * d)) i = (cellAt l i).map (· * d) := by
  unfold cellAt
  split
  · rfl
  · rw [List.getElem?_map]
    cases l[i.toNat]? <;> rfl

theorem cellPut_mul (l : List ℝ) (i : Int) (x : ℝ) : cellPut (l.map (· * d)) i (x * d) = (cellPut l i x).map (List.map (· * d)) := by
  unfold cellPut
  rw [List.length_map]
  split
  · show Except.ok _ = Except.ok _
    rw [List.map_set]
  · rfl

theorem propagateCell_mul (dt : ℝ) (E prev J next : List ℝ) (i : Int) :
    propagateCell dt (E.map (· * d)) (prev.map (· * d)) (J.map (· * d)) (next.map (· * d)) i = (propagateCell dt E prev J next i).map (List.map (· * d)) := by
  unfold propagateCell
  simp only [cellAt_mul]
  cases cellAt E (i - 1) with
  | error e => rfl
  | ok a =>
  cases cellAt E (i + 1) with
  | error e => rfl
  | ok b =>
  cases cellAt prev (i - 1) with
  | error e => rfl
  | ok c =>
  cases cellAt J i with
  | error e => rfl
  | ok j =>
    show cellPut _ _ (a * d + b * d - c * d + dt * dt * (j * d)) = Except.map _ (cellPut next (i + 1) (a + b - c + dt * dt * j))
    rw [← cellPut_mul]
    congr 1
    ring

theorem correct_mul (dt : ℝ) (J E : List ℝ) (i : Int) : correct dt (J.map (· * d)) (E.map (· * d)) i = (correct dt J E i).map (List.map (· * d)) := by
  unfold correct
  simp only [cellAt_mul]
  cases cellAt E i with
  | error e => rfl
  | ok a =>
  cases cellAt J i with
  | error e => rfl
  | ok j =>
    show cellPut _ _ (a * d + dt * dt * (j * d)) = Except.map _ (cellPut E i (a + dt * dt * j))
    rw [← cellPut_mul]
    congr 1
    ring

theorem depositCell_mul (ds dz jx : ℝ) (J : List ℝ) (i : Int) : depositCell ds dz (jx * d) (J.map (· * d)) i = (depositCell ds dz jx J i).map (List.map (· * d)) := by
  unfold depositCell
  simp only [cellAt_mul]
  cases cellAt J i with
  | error e => rfl
  | ok j =>
    show cellPut _ _ (j * d + jx * d * _ / _) = Except.map _ (cellPut J i (j + jx * _ / _))
    rw [← cellPut_mul]
    congr 1
    ring

theorem zeros_mul (n : Nat) : List.replicate n (0 : ℝ) = (List.replicate n (0 : ℝ)).map (· * d) := by simp

variable (c a : ℝ)

theorem propagate_rescale (f : FEL) (J : List ℝ) : (f.rescale c a).propagate (J.map (· * c⁻¹)) = (f.propagate J).map (List.map (· * c⁻¹)) := by
  unfold propagate
  show (do
    let e0 ← cellAt (f.E.map (· * c⁻¹)) 0
    let next ← cellPut (List.replicate f.N 0) 1 e0
    (intLoop 1 (f.N - 1)).foldlM (propagateCell f.dt (f.E.map (· * c⁻¹)) (f.prev.map (· * c⁻¹)) (J.map (· * c⁻¹))) next) = _
  rw [cellAt_mul]
  cases cellAt f.E 0 with
  | error e => rfl
  | ok e0 =>
    show (do
      let next ← cellPut (List.replicate f.N 0) 1 (e0 * c⁻¹)
      (intLoop 1 (f.N - 1)).foldlM (propagateCell f.dt (f.E.map (· * c⁻¹)) (f.prev.map (· * c⁻¹)) (J.map (· * c⁻¹))) next) = Except.map _ (do
      let next ← cellPut (List.replicate f.N 0) 1 e0
      (intLoop 1 (f.N - 1)).foldlM (propagateCell f.dt f.E f.prev J) next)
    rw [zeros_mul c⁻¹, cellPut_mul, ← zeros_mul]
    cases cellPut (List.replicate f.N 0) 1 e0 with
    | error e => rfl
    | ok next => exact Frame.foldlM_idx _ _ _ (fun t i => propagateCell_mul c⁻¹ f.dt f.E f.prev J t i) _ _

theorem init_rescale (b b' : Beam) (hb : b'.dt = b.dt) (f : FEL) : FEL.init b' (f.rescale c a) = (FEL.init b f).map (FEL.rescale c a) := by
  unfold init
  rw [hb]
  have e1 : (f.rescale c a).dt = f.dt := rfl
  have e2 : (f.rescale c a).N = f.N := rfl
  rw [e1, e2, zeros_mul c⁻¹, propagate_rescale, ← zeros_mul]
  by_cases c1 : f.dt = 0
  · rw [if_pos c1, if_pos c1]; rfl
  rw [if_neg c1, if_neg c1]
  by_cases c2 : 1e-9 < |b.dt - f.dt| / f.dt
  · rw [if_pos c2, if_pos c2]; rfl
  rw [if_neg c2, if_neg c2]
  simp only [pure, Except.pure, bind, Except.bind]
  cases f.propagate (List.replicate f.N 0) <;> rfl

theorem fillBuffer_mul (n N : Nat) (rows : List (List ℝ)) : fillBuffer n N (rows.map (List.map (· * d))) = (fillBuffer n N rows).map (List.map (· * d)) := by
  unfold fillBuffer
  refine Frame.foldlM_idx (List.map (· * d)) _ _ (fun buf i => ?_) (List.range n) []
  rw [List.getElem?_map]
  cases rows[i]? with
  | none => rfl
  | some row =>
    refine Frame.foldlM_idx (List.map (· * d)) _ _ (fun buf i => ?_) (List.range N) buf
    rw [cellAt_mul]
    cases cellAt row i with
    | error e => rfl
    | ok x =>
      show Except.ok _ = Except.ok _
      rw [List.map_append]
      rfl

/-- the file of a scaled interaction: the numbers are scaled as well -/
theorem writeOutput_rescale (f : FEL) : (f.rescale c a).writeOutput = f.writeOutput.map (fun F => { F with
    w0 := a * F.w0, InteractionField := F.InteractionField.map (· * c⁻¹), CurrentDensity := F.CurrentDensity.map (· * c⁻¹) }) := by
  unfold writeOutput
  have e1 : (f.rescale c a).fields = f.fields.map (List.map (· * c⁻¹)) := rfl
  have e2 : (f.rescale c a).currents = f.currents.map (List.map (· * c⁻¹)) := rfl
  have e3 : (f.rescale c a).N = f.N := rfl
  have e4 : (f.rescale c a).stepOutput = f.stepOutput := rfl
  rw [e1, e2, e3, e4, List.length_map]
  by_cases c1 : 2 ^ 31 ≤ f.N * f.fields.length
  · simp only [if_pos c1]; rfl
  simp only [if_neg c1, fillBuffer_mul, pure, Except.pure, bind, Except.bind]
  cases fillBuffer f.fields.length f.N f.fields with
  | error e => rfl
  | ok E =>
  cases f.stepOutput with
  | none => rfl
  | some o =>
  cases fillBuffer f.fields.length f.N f.currents with
  | error e => rfl
  | ok J => rfl

variable {c a} {k : ℝ} (hc : c ≠ 0) (ha : a ≠ 0) (hk : k * c * c = a * a)
include hc ha hk

theorem deposit_rescale (f : FEL) (J : List ℝ) (p : Particle) : (f.rescale c a).deposit (J.map (· * c⁻¹)) (p.rescale c k) = (f.deposit J p).map (List.map (· * c⁻¹)) := by
  have hw : a * f.w0 = 0 ↔ f.w0 = 0 := by simp [ha]
  have w1 : (p.rescale c k).tCur = p.tCur := rfl
  have w2 : (p.rescale c k).XCur = p.XCur := rfl
  have w3 : (p.rescale c k).PCur = p.PCur := rfl
  have w4 : (p.rescale c k).ACur = p.ACur := rfl
  have w5 : (p.rescale c k).getCharge = k * c * p.getCharge := by unfold Particle.getCharge Particle.rescale Particle.weigh Particle.recharge; ring
  have v1 : (f.rescale c a).modeArea = a * a * f.modeArea := by
    unfold modeArea rescale
    simp only
    ring
  have v2 : (f.rescale c a).w0 = a * f.w0 := rfl
  have v3 : (f.rescale c a).dt = f.dt := rfl
  have v4 : (f.rescale c a).N = f.N := rfl
  have v5 : (f.rescale c a).ds = f.ds := rfl
  have v6 : (f.rescale c a).time = f.time := rfl
  have v7 : (f.rescale c a).head = f.head := rfl
  have v8 : (f.rescale c a).prop = f.prop := rfl
  have v9 : (f.rescale c a).ex = f.ex := rfl
  have v10 : (f.rescale c a).zR = f.zR := rfl
  have hj : ∀ x, x * (k * c * p.getCharge) / (a * a * f.modeArea) / f.dt * MuNull * SpeedOfLight * SpeedOfLight
      = x * p.getCharge / f.modeArea / f.dt * MuNull * SpeedOfLight * SpeedOfLight * c⁻¹ := by
    intro x
    have : x * (k * c * p.getCharge) / (a * a * f.modeArea) = x * p.getCharge / f.modeArea * c⁻¹ := by
      rw [← hk, div_mul_eq_div_div]
      have hkc : k ≠ 0 := by rintro rfl; apply ha; simpa using hk
      field_simp
    rw [this]
    ring
  unfold deposit
  rw [w1, w2, w3, w4, w5, v1, v2, v3, v4, v5, v6, v7, v8, v9, v10]
  by_cases c1 : 1 / 4 * f.dt < |p.tCur - f.time|
  · rw [if_pos c1, if_pos c1]; rfl
  rw [if_neg c1, if_neg c1]
  by_cases c2 : dot (f.head - p.XCur) f.prop < 0 ∨ dot (f.head - p.XCur) f.prop > f.N * f.ds
  · rw [if_pos c2, if_pos c2]; rfl
  rw [if_neg c2, if_neg c2]
  by_cases c3 : f.zR = 0 ∨ f.w0 = 0 ∨ f.ds = 0
  · rw [if_pos c3, if_pos (by rw [hw]; exact c3)]; rfl
  rw [if_neg c3, if_neg (by rw [hw]; exact c3)]
  simp only [bind, Except.bind, pure, Except.pure]
  cases toInt32 (crint (dot (f.head - p.XCur) f.prop / f.ds)) with
  | error e => rfl
  | ok center =>
    simp only [hj]
    exact Frame.foldlM_idx _ _ _ (fun t i => depositCell_mul c⁻¹ _ _ _ t i) _ _

theorem step_rescale (dt : ℝ) (n : Int) (ps : List Particle) (f : FEL) :
    FEL.step ⟨1, [⟨(ps.map (Particle.rescale c k)).length, ps.map (Particle.rescale c k)⟩], n, dt, .vay⟩ (f.rescale c a)
      = (FEL.step ⟨1, [⟨ps.length, ps⟩], n, dt, .vay⟩ f).map (FEL.rescale c a) := by
  show FEL.step (oneBunch dt n (ps.map (Particle.rescale c k))) (f.rescale c a) = (FEL.step (oneBunch dt n ps) f).map (FEL.rescale c a)
  unfold step
  rw [oneBunch_visits, oneBunch_visits]
  have hn : ∀ l, (oneBunch dt n l).NOTS = n := fun _ => rfl
  have e1 : (f.rescale c a).dt = f.dt := rfl
  have e2 : (f.rescale c a).N = f.N := rfl
  have e3 : (f.rescale c a).time = f.time := rfl
  have e4 : (f.rescale c a).E = f.E.map (· * c⁻¹) := rfl
  have e5 : ∀ n, (f.rescale c a).recordDue n = f.recordDue n := fun _ => rfl
  rw [hn, hn, e1, e2, e3, e4]
  split
  · rfl
  simp only [pure, Except.pure, bind, Except.bind]
  have hd : (ps.map (Particle.rescale c k)).foldlM (f.rescale c a).deposit (List.replicate f.N 0) = (ps.foldlM f.deposit (List.replicate f.N 0)).map (List.map (· * c⁻¹)) := by
    rw [zeros_mul c⁻¹]
    conv_rhs => rw [← zeros_mul]
    rw [List.foldlM_map]
    exact Frame.foldlM_idx _ _ _ (fun t p => deposit_rescale hc ha hk f t p) _ _
  rw [hd]
  cases ps.foldlM f.deposit (List.replicate f.N 0) with
  | error e => rfl
  | ok J =>
    simp only [Except.map]
    rw [propagate_rescale]
    cases f.propagate J with
    | error e => rfl
    | ok next =>
      simp only [Except.map]
      rw [Frame.foldlM_idx (List.map (· * c⁻¹)) (correct f.dt J) (correct f.dt (J.map (· * c⁻¹))) (fun t i => correct_mul c⁻¹ f.dt J t i)]
      cases (intLoop 1 (f.N - 1)).foldlM (correct f.dt J) f.E with
      | error e => rfl
      | ok E =>
        simp only [Except.map]
        have e6 : (f.rescale c a).steps = f.steps := rfl
        rw [e5, e6]
        cases f.recordDue (f.steps + 1) with
        | error e => rfl
        | ok due =>
          cases due
          · rfl
          · simp [rescale]

omit ha hk in
theorem field_rescale (f : FEL) (t : ℝ) (X : Vec) : (f.rescale c a).Field t X = (f.Field t X).map (fun F : EMField => F * c⁻¹) := by
  unfold Field
  have v1 : (f.rescale c a).E = f.E.map (· * c⁻¹) := rfl
  have v3 : (f.rescale c a).dt = f.dt := rfl
  have v4 : (f.rescale c a).N = f.N := rfl
  have v5 : (f.rescale c a).ds = f.ds := rfl
  have v6 : (f.rescale c a).time = f.time := rfl
  have v7 : (f.rescale c a).head = f.head := rfl
  have v8 : (f.rescale c a).prop = f.prop := rfl
  have v9 : (f.rescale c a).ex = f.ex := rfl
  have v10 : (f.rescale c a).ey = f.ey := rfl
  rw [v1, v3, v4, v5, v6, v7, v8, v9, v10]
  by_cases c1 : 1 / 4 * f.dt < |t - f.time|
  · rw [if_pos c1, if_pos c1]; rfl
  rw [if_neg c1, if_neg c1]
  by_cases c2 : f.ds = 0
  · rw [if_pos c2, if_pos c2]; rfl
  rw [if_neg c2, if_neg c2]
  simp only [pure, Except.pure, bind, Except.bind]
  cases toInt32 (crint (dot (f.head - X) f.prop / f.ds)) with
  | error e => rfl
  | ok i =>
    simp only [cellAt_mul]
    split
    · rfl
    cases cellAt f.E i with
    | error e => rfl
    | ok e =>
      show Except.ok _ = Except.ok _
      congr 1
      ext <;> simp <;> ring

end FEL

theorem coupled_rescale {c a : ℝ} (hc : c ≠ 0) {l l' : Lattice} (h : Weakened c (Lattice.field l) (Lattice.field l')) (s : List FEL) :
    Weakened c (Coupled.field l s) (Coupled.field l' (s.map (FEL.rescale c a))) := by
  intro t X F hF
  unfold Coupled.field at hF ⊢
  cases hl : Lattice.field l t X with
  | error e => rw [hl] at hF; cases hF
  | ok G =>
  rw [hl] at hF
  simp only [bind, Except.bind, pure, Except.pure] at hF ⊢
  rw [h t X G hl]
  cases hs : s.mapM (fun f : FEL => f.Field t X) with
  | error e => rw [hs] at hF; cases hF
  | ok Gs =>
    rw [hs] at hF
    rw [mapM_recharge (φ := FEL.rescale c a) (ψ := fun F : EMField => F * c⁻¹) (fun f G hG => by rw [FEL.field_rescale hc, hG]; rfl) hs]
    cases hF
    show Except.ok _ = Except.ok _
    rw [sum_mul, Particle.add_weigh]

theorem after_rescale {c a k : ℝ} (hc : c ≠ 0) (ha : a ≠ 0) (hk : k * c * c = a * a) {l l' : Lattice} (h : Weakened c (Lattice.field l) (Lattice.field l')) {dt : ℝ} {ps : List Particle}
    {s : List FEL} {n : Nat} {qs : List Particle} {S : List FEL} (hr : Coupled.after l dt ps s n = .ok (qs, S)) :
    Coupled.after l' dt (ps.map (Particle.rescale c k)) (s.map (FEL.rescale c a)) n = .ok (qs.map (Particle.rescale c k), S.map (FEL.rescale c a)) := by
  have hk0 : k ≠ 0 := by rintro rfl; apply ha; simpa using hk
  induction n generalizing qs S with
  | zero =>
    unfold Coupled.after at hr ⊢
    simp only [bind, Except.bind] at hr ⊢
    cases hq : ps.mapM (fun p : Particle => dropState ((p.initTrajectory p.tCur p.XCur p.PCur p.ACur).InitVay dt (Coupled.field l s))) with
    | error e => rw [hq] at hr; cases hr
    | ok bs =>
      rw [hq] at hr
      rw [mapM_recharge (φ := Particle.rescale c k) (ψ := Particle.rescale c k) (fun p q hpq => by
        show dropState ((((p.initTrajectory p.tCur p.XCur p.PCur p.ACur).recharge c).weigh k).InitVay dt _) = _
        rw [Particle.init_weigh k hk0, Particle.init_recharge hc (coupled_rescale hc h s) _ q dt (dropState_ok hpq)]
        rfl) hq]
      simp only at hr ⊢
      cases hs : s.mapM (FEL.init ⟨1, [⟨bs.length, bs⟩], 0, dt, .vay⟩) with
      | error e => rw [hs] at hr; cases hr
      | ok s' =>
        rw [hs] at hr
        rw [mapM_recharge (φ := FEL.rescale c a) (ψ := FEL.rescale c a) (fun f g hfg => by rw [FEL.init_rescale c a ⟨1, [⟨bs.length, bs⟩], 0, dt, .vay⟩ ⟨1, [⟨(bs.map (Particle.rescale c k)).length, bs.map (Particle.rescale c k)⟩], 0, dt, .vay⟩ rfl, hfg]; rfl) hs]
        cases hr
        rfl
  | succ n ih =>
    unfold Coupled.after at hr ⊢
    simp only [bind, Except.bind] at hr ⊢
    cases hb : Coupled.after l dt ps s n with
    | error e => rw [hb] at hr; cases hr
    | ok b =>
      obtain ⟨b1, b2⟩ := b
      rw [hb] at hr
      rw [ih hb]
      simp only at hr ⊢
      cases hq : b1.mapM (fun p : Particle => dropState (p.StepVay (Coupled.field l b2))) with
      | error e => rw [hq] at hr; cases hr
      | ok bs =>
        rw [hq] at hr
        rw [mapM_recharge (φ := Particle.rescale c k) (ψ := Particle.rescale c k) (fun p q hpq => by
          show dropState (((p.recharge c).weigh k).StepVay _) = _
          rw [Particle.step_weigh k, Particle.step_recharge hc (coupled_rescale hc h b2) _ q (dropState_ok hpq)]
          rfl) hq]
        simp only at hr ⊢
        cases hs : b2.mapM (FEL.step ⟨1, [⟨bs.length, bs⟩], n + 1, dt, .vay⟩) with
        | error e => rw [hs] at hr; cases hr
        | ok s' =>
          rw [hs] at hr
          rw [mapM_recharge (φ := FEL.rescale c a) (ψ := FEL.rescale c a) (fun f g hfg => by rw [FEL.step_rescale hc ha hk, hfg]; rfl) hs]
          cases hr
          rfl

end Teufel
