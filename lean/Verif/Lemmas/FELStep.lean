import Verif.Lemmas.FEL

/-! # One time step of the FEL interaction -/

namespace Teufel
open Vec

theorem cellPut_length {l l' : List ℝ} {i : Int} {x : ℝ} (h : cellPut l i x = .ok l') : l'.length = l.length := by
  unfold cellPut at h
  split at h
  · injection h with h; rw [← h]; simp
  · cases h

theorem foldlM_length {β : Type} (f : List ℝ → β → Except Err (List ℝ)) (hf : ∀ l b l', f l b = .ok l' → l'.length = l.length) (bs : List β) :
    ∀ (l l' : List ℝ), bs.foldlM f l = .ok l' → l'.length = l.length := by
  induction bs with
  | nil => intro l l' h; injection h with h; rw [h]
  | cons b bs ih =>
    intro l l' h
    rw [List.foldlM_cons] at h
    cases hb : f l b with
    | error e => rw [hb] at h; cases h
    | ok l1 =>
      rw [hb] at h
      rw [ih l1 l' h, hf l b l1 hb]

namespace FEL

theorem depositCell_length {ds dz jx : ℝ} {J J' : List ℝ} {i : Int} (h : depositCell ds dz jx J i = .ok J') : J'.length = J.length := by
  unfold depositCell at h
  cases hc : cellAt J i with
  | error e => rw [hc] at h; cases h
  | ok j => rw [hc] at h; exact cellPut_length h

theorem deposit_length {f : FEL} {J J' : List ℝ} {p : Particle} (h : f.deposit J p = .ok J') : J'.length = J.length := by
  unfold deposit at h
  simp only [pure, Except.pure, bind, Except.bind] at h
  split at h
  · cases h
  · split at h
    · cases h
    · split at h
      · cases h
      · split at h
        · cases h
        · exact foldlM_length _ (fun l b l' hl => depositCell_length hl) _ _ _ h

theorem propagate_two {f : FEL} {J next : List ℝ} (h : f.propagate J = .ok next) : 2 ≤ f.N := by
  unfold propagate at h
  cases h0 : cellAt f.E 0 with
  | error e => rw [h0] at h; cases h
  | ok e0 =>
    rw [h0] at h
    simp only [bind, Except.bind] at h
    cases h1 : cellPut (List.replicate f.N 0) 1 e0 with
    | error e => rw [h1] at h; cases h
    | ok n =>
      unfold cellPut at h1
      split at h1
      · rename_i hc; have := hc.2; simp at this; omega
      · cases h1

/-- `f'` is `f` one time step later, driven by the current density `J` -/
structure Advanced (f f' : FEL) (J : Nat → ℝ) : Prop where
  N : f'.N = f.N
  dt : f'.dt = f.dt
  ds : f'.ds = f.ds
  origin : f'.origin = f.origin
  prop : f'.prop = f.prop
  ex : f'.ex = f.ex
  ey : f'.ey = f.ey
  zR : f'.zR = f.zR
  w0 : f'.w0 = f.w0
  zw : f'.zw = f.zw
  out : f'.stepOutput = f.stepOutput
  steps : f'.steps = f.steps + 1
  time : f'.time = f.time + f.dt
  head : f'.head = f.head + f.prop * f.ds
  sized : f'.Sized
  E : ∀ j, fval f'.E j = f.nextVal J j
  prev : ∀ j, fval f'.prev j = fval f.E j + if 1 ≤ j ∧ j + 1 < f.N then f.dt * f.dt * J j else 0

theorem init_ok {f : FEL} (h : f.Sized) (hN : 2 ≤ f.N) (b : Beam) (hdt : f.dt ≠ 0) (hb : |b.dt - f.dt| / f.dt ≤ 1e-9) :
    ∃ f', f.init b = .ok f' ∧ f.Advanced f' (fun _ => 0) ∧ f'.fields = f.fields ∧ f'.currents = f.currents := by
  obtain ⟨next, h1, h2, h3⟩ := propagate_ok h hN (List.replicate f.N 0) (by simp)
  refine ⟨{ f with steps := f.steps + 1, time := f.time + f.dt, head := f.head + f.prop * f.ds, prev := f.E, E := next }, ?_,
    ⟨rfl, rfl, rfl, rfl, rfl, rfl, rfl, rfl, rfl, rfl, rfl, rfl, rfl, rfl, ⟨h2, h.E⟩, ?_, ?_⟩, rfl, rfl⟩
  · unfold init
    rw [if_neg hdt, if_neg (not_lt.mpr hb)]
    simp only [pure, Except.pure, bind, Except.bind]
    rw [h1]
  · intro j
    rw [h3]
    congr 1
    funext i
    exact fval_replicate _ _
  · intro j
    simp

theorem init_inv {f f' : FEL} (h : f.Sized) {b : Beam} (hi : f.init b = .ok f') :
    f.dt ≠ 0 ∧ |b.dt - f.dt| / f.dt ≤ 1e-9 ∧ 2 ≤ f.N ∧ f.Advanced f' (fun _ => 0) ∧ f'.fields = f.fields ∧ f'.currents = f.currents := by
  have h0 := hi
  unfold init at hi
  simp only [pure, Except.pure, bind, Except.bind] at hi
  split at hi
  · cases hi
  · rename_i hdt
    split at hi
    · cases hi
    · rename_i hb
      cases hp : f.propagate (List.replicate f.N 0) with
      | error e => rw [hp] at hi; cases hi
      | ok next =>
        have hN := propagate_two hp
        have hdt' : f.dt ≠ 0 := hdt
        have hb' : |b.dt - f.dt| / f.dt ≤ 1e-9 := not_lt.mp hb
        obtain ⟨f1, a1, a2, a3, a4⟩ := init_ok h hN b hdt' hb'
        rw [h0] at a1
        injection a1 with a1
        subst a1
        exact ⟨hdt', hb', hN, a2, a3, a4⟩

/-- everything after the deposition, src/fel1d.cpp:293-326 -/
noncomputable def finish (f : FEL) (J : List ℝ) : Except Err FEL := do
  let next ← f.propagate J
  let E ← (intLoop 1 (f.N - 1)).foldlM (correct f.dt J) f.E
  let f' := { f with steps := f.steps + 1, time := f.time + f.dt, head := f.head + f.prop * f.ds, prev := E, E := next }
  let due ← f.recordDue f'.steps
  return if due then { f' with fields := f.fields ++ [next], currents := f.currents ++ [J] } else f'

theorem step_eq (f : FEL) (b : Beam) : f.step b = (if |(b.NOTS : ℝ) * f.dt - f.time| > 1 / 4 * f.dt then .error .io else do
    let ps ← b.traverse
    let J ← ps.foldlM f.deposit (List.replicate f.N 0)
    f.finish J) := by
  unfold step
  simp only [pure, Except.pure, bind, Except.bind]
  split
  · rfl
  · rfl

theorem finish_ok {f : FEL} (h : f.Sized) (hN : 2 ≤ f.N) (J : List ℝ) (hJ : J.length = f.N) :
    (∀ e, f.recordDue (f.steps + 1) = .error e → f.finish J = .error e) ∧
    ∀ due, f.recordDue (f.steps + 1) = .ok due → ∃ f', f.finish J = .ok f' ∧ f.Advanced f' (fval J) ∧
      f'.fields = f.fields ++ (if due then [f'.E] else []) ∧ f'.currents = f.currents ++ (if due then [J] else []) := by
  obtain ⟨next, h1, h2, h3⟩ := propagate_ok h hN J hJ
  obtain ⟨E, e1, e2, e3⟩ := correct_ok h hN J hJ
  constructor
  · intro e he
    unfold finish
    rw [h1, e1]
    simp only [bind, Except.bind]
    rw [he]
  · intro due hd
    have hfin : f.finish J = .ok (if due then { f with steps := f.steps + 1, time := f.time + f.dt, head := f.head + f.prop * f.ds, prev := E, E := next, fields := f.fields ++ [next], currents := f.currents ++ [J] } else { f with steps := f.steps + 1, time := f.time + f.dt, head := f.head + f.prop * f.ds, prev := E, E := next }) := by
      unfold finish
      rw [h1, e1]
      simp only [bind, Except.bind]
      rw [hd]
      rfl
    rw [hfin]
    refine ⟨_, rfl, ?_⟩
    cases due with
    | true => exact ⟨⟨rfl, rfl, rfl, rfl, rfl, rfl, rfl, rfl, rfl, rfl, rfl, rfl, rfl, rfl, ⟨h2, e2⟩, h3, e3⟩, rfl, rfl⟩
    | false => exact ⟨⟨rfl, rfl, rfl, rfl, rfl, rfl, rfl, rfl, rfl, rfl, rfl, rfl, rfl, rfl, ⟨h2, e2⟩, h3, e3⟩, by simp, by simp⟩

theorem step_inv {f f' : FEL} (h : f.Sized) {b : Beam} (hs : f.step b = .ok f') :
    |(b.NOTS : ℝ) * f.dt - f.time| ≤ 1 / 4 * f.dt ∧ 2 ≤ f.N ∧ ∃ ps J due, b.traverse = .ok ps ∧
      ps.foldlM f.deposit (List.replicate f.N 0) = .ok J ∧ J.length = f.N ∧ f.recordDue (f.steps + 1) = .ok due ∧ f.Advanced f' (fval J) ∧
      f'.fields = f.fields ++ (if due then [f'.E] else []) ∧ f'.currents = f.currents ++ (if due then [J] else []) := by
  rw [step_eq] at hs
  split at hs
  · cases hs
  · rename_i ht
    refine ⟨not_lt.mp ht, ?_⟩
    cases hp : b.traverse with
    | error e => rw [hp] at hs; cases hs
    | ok ps =>
      rw [hp] at hs
      cases hJ : ps.foldlM f.deposit (List.replicate f.N 0) with
      | error e =>
        simp only [bind, Except.bind] at hs
        rw [hJ] at hs; cases hs
      | ok J =>
        simp only [bind, Except.bind] at hs
        rw [hJ] at hs
        replace hs : f.finish J = .ok f' := hs
        have hl : J.length = f.N := by rw [foldlM_length _ (fun l b l' hl => deposit_length hl) _ _ _ hJ]; simp
        have hN : 2 ≤ f.N := by
          cases hpr : f.propagate J with
          | ok next => exact propagate_two hpr
          | error e =>
            unfold finish at hs
            rw [hpr] at hs; cases hs
        obtain ⟨c1, c2⟩ := finish_ok h hN J hl
        cases hd : f.recordDue (f.steps + 1) with
        | error e => rw [c1 e hd] at hs; cases hs
        | ok due =>
          obtain ⟨f1, d1, d2⟩ := c2 due hd
          rw [d1] at hs
          injection hs with hs
          subst hs
          exact ⟨hN, ps, J, due, rfl, hJ, hl, rfl, d2⟩

theorem step_ok {f : FEL} (h : f.Sized) (hs : f.Sane) {b : Beam} {ps : List Particle} (hb : b.traverse = .ok ps)
    (ht : |(b.NOTS : ℝ) * f.dt - f.time| ≤ 1 / 4 * f.dt) (hp : ∀ p ∈ ps, f.Accepts p) :
    ∃ J : List ℝ, J.length = f.N ∧ (∀ i, fval J i = (ps.map (fun p => f.share p i)).sum) ∧
    (∀ e, f.recordDue (f.steps + 1) = .error e → f.step b = .error e) ∧
    ∀ due, f.recordDue (f.steps + 1) = .ok due → ∃ f', f.step b = .ok f' ∧ f.Advanced f' (fval J) ∧
      f'.fields = f.fields ++ (if due then [f'.E] else []) ∧ f'.currents = f.currents ++ (if due then [J] else []) := by
  obtain ⟨J, j1, j2, j3⟩ := deposit_all hs ps (List.replicate f.N 0) (by simp) hp
  refine ⟨J, j2, fun i => by rw [j3, fval_replicate, zero_add], ?_⟩
  rw [step_eq, if_neg (not_lt.mpr ht), hb]
  simp only [bind, Except.bind]
  rw [j1]
  exact finish_ok h hs.two J j2

/-- out of step or off the grid -/
theorem step_rejects {f : FEL} (hs : f.Sane) {b : Beam} {ps : List Particle} (hb : b.traverse = .ok ps)
    (hp : ¬ (|(b.NOTS : ℝ) * f.dt - f.time| ≤ 1 / 4 * f.dt ∧ ∀ p ∈ ps, f.Accepts p)) : f.step b = .error .io := by
  rw [step_eq]
  by_cases ht : |(b.NOTS : ℝ) * f.dt - f.time| > 1 / 4 * f.dt
  · rw [if_pos ht]
  · rw [if_neg ht, hb]
    simp only [bind, Except.bind]
    rw [deposit_all_rejects hs ps _ (by simp) (fun h => hp ⟨not_lt.mp ht, h⟩)]

end FEL
end Teufel
