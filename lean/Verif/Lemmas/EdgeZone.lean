import Verif.Lemmas.EdgeStep
import Verif.Lemmas.Existence

/-! # Tracking through jumps of the field: the vicinity of a point of the path -/

namespace Teufel
open Vec

namespace Edge

/-- The vicinity of the point `x τ` of the path.  The normals `ns` belong to the planes through this point at which the field may jump; the particle moves
along all of them.  Before and behind all of the planes the field has no jump. -/
structure Zone (qm : ℝ) (field : FieldFn) (x p : ℝ → Vec) (lo τ hi : ℝ) (ns : List Vec) (σ ρ R F L M A D : ℝ) : Prop where
  hlo : lo ≤ τ
  hhi : τ ≤ hi
  hσ : 0 < σ
  hρ : 0 < ρ
  hR : 0 ≤ R
  hF : 0 ≤ F
  hL : 0 ≤ L
  hM : 0 ≤ M
  hA : 0 ≤ A
  hD : 0 ≤ D
  size : ∀ n ∈ ns, n.norm ≤ R
  short : (2 * SpeedOfLight + 2 * F) * (hi - lo) ≤ ρ / 2
  defined : ∀ t, lo ≤ t → t ≤ hi → ∀ X, (X - x t).norm ≤ ρ → ∃ EB, field t X = .ok EB ∧ |qm| * (EB.E.norm / SpeedOfLight + EB.B.norm) ≤ F
  mom : ∀ t t', lo ≤ t → t ≤ t' → t' ≤ hi → (p t' - p t).norm ≤ F * (t' - t)
  pos : ∀ t t', lo ≤ t → t ≤ t' → t' ≤ hi → (x t' - x t).norm ≤ SpeedOfLight * (t' - t)
  pos2 : ∀ t t', lo ≤ t → t ≤ t' → t' ≤ hi → (x t' - x t - velOf (p t) * (SpeedOfLight * (t' - t))).norm ≤ A * (t' - t) ^ 2
  approach : ∀ t, lo ≤ t → t ≤ τ → ∀ n ∈ ns, dot (x t - x τ) n ≤ -(σ * (τ - t))
  speed : ∀ t, lo ≤ t → t ≤ hi → ∀ u, (u - p t).norm ≤ ρ → ∀ n ∈ ns, σ ≤ SpeedOfLight * dot (velOf u) n
  good : ∀ t t', lo ≤ t → t ≤ t' → t' ≤ hi → ∀ X, (X - x t').norm ≤ ρ →
    ((t' ≤ τ ∧ ∀ n ∈ ns, dot (X - x τ) n < 0) ∨ (τ ≤ t ∧ ∀ n ∈ ns, 0 < dot (X - x τ) n)) →
    ∃ E B EB', field t' X = .ok EB' ∧ (p t' - p t - (E / SpeedOfLight + cross (velOf (p t')) B) * (qm * (t' - t))).norm ≤ D * (t' - t) ^ 2 ∧
      B.norm ≤ M ∧ (EB'.E - E).norm ≤ L * (X - x t').norm ∧ (EB'.B - B).norm ≤ L * (X - x t').norm

/-- deviation of a tracked particle from the exact motion -/
noncomputable def err (x p : ℝ → Vec) (q : Particle) (t : ℝ) : ℝ := (q.XCur - x t).norm + (q.VYp - p t).norm

theorem err_nonneg (x p : ℝ → Vec) (q : Particle) (t : ℝ) : 0 ≤ err x p q t := add_nonneg (Vec.norm_nonneg _) (Vec.norm_nonneg _)

/-- the kicks of a step are bounded -/
theorem kick_le {qm h F : ℝ} (hh : 0 ≤ h) {u u' E B : Vec} (hF : |qm| * (E.norm / SpeedOfLight + B.norm) ≤ F) :
    ((E / SpeedOfLight * (2 : ℝ) + cross (velOf u + velOf u') B) * (qm * (h / 2))).norm ≤ F * h := by
  have hc := SpeedOfLight_pos
  rw [Vec.norm_mul, abs_mul, abs_of_nonneg (show 0 ≤ h / 2 by positivity)]
  have c1 : (cross (velOf u + velOf u') B).norm ≤ 2 * B.norm :=
    norm_cross_bound ((Vec.norm_add_le _ _).trans (by linarith [velOf_le u, velOf_le u'])) le_rfl
  have c2 : (E / SpeedOfLight * (2 : ℝ)).norm = E.norm / SpeedOfLight * 2 := by
    rw [Vec.norm_mul, norm_div, abs_of_pos hc, abs_of_pos (by norm_num : (0:ℝ) < 2)]
  have c3 := Vec.norm_add_le (E / SpeedOfLight * (2 : ℝ)) (cross (velOf u + velOf u') B)
  have c4 : (E / SpeedOfLight * (2 : ℝ) + cross (velOf u + velOf u') B).norm ≤ 2 * (E.norm / SpeedOfLight + B.norm) := by linarith
  calc (E / SpeedOfLight * (2 : ℝ) + cross (velOf u + velOf u') B).norm * (|qm| * (h / 2)) ≤ 2 * (E.norm / SpeedOfLight + B.norm) * (|qm| * (h / 2)) :=
        mul_le_mul_of_nonneg_right c4 (by positivity)
    _ = |qm| * (E.norm / SpeedOfLight + B.norm) * h := by ring
    _ ≤ F * h := mul_le_mul_of_nonneg_right hF hh

theorem half_kick_le {qm h F : ℝ} (hh : 0 ≤ h) {u E B : Vec} (hF : |qm| * (E.norm / SpeedOfLight + B.norm) ≤ F) :
    ((E / SpeedOfLight + cross (velOf u) B) * (qm * (h / 2))).norm ≤ F * h := by
  have hc := SpeedOfLight_pos
  rw [Vec.norm_mul, abs_mul, abs_of_nonneg (show 0 ≤ h / 2 by positivity)]
  have c1 : (cross (velOf u) B).norm ≤ 1 * B.norm := norm_cross_bound (velOf_le u) le_rfl
  have c2 : (E / SpeedOfLight).norm = E.norm / SpeedOfLight := by rw [norm_div, abs_of_pos hc]
  have c3 := Vec.norm_add_le (E / SpeedOfLight) (cross (velOf u) B)
  have hE := Vec.norm_nonneg E
  have hB := Vec.norm_nonneg B
  have hX : 0 ≤ E.norm / SpeedOfLight + B.norm := by positivity
  have hF0 : 0 ≤ F := (mul_nonneg (abs_nonneg qm) hX).trans hF
  calc (E / SpeedOfLight + cross (velOf u) B).norm * (|qm| * (h / 2)) ≤ (E.norm / SpeedOfLight + B.norm) * (|qm| * (h / 2)) :=
        mul_le_mul_of_nonneg_right (by linarith) (by positivity)
    _ = |qm| * (E.norm / SpeedOfLight + B.norm) * (h / 2) := by ring
    _ ≤ F * (h / 2) := mul_le_mul_of_nonneg_right hF (by positivity)
    _ ≤ F * h := mul_le_mul_of_nonneg_left (by linarith) hF0

theorem steps_succ {q q' q'' : Particle} {field : FieldFn} {k : ℕ} (h : q.steps (List.replicate k field) = .ok q') (h' : q'.StepVay field = .ok q'') :
    q.steps (List.replicate (k + 1) field) = .ok q'' := by
  rw [show List.replicate (k + 1) field = List.replicate k field ++ [field] by rw [List.replicate_succ'], Particle.steps_append_ok h]
  simp only [Particle.steps, List.foldlM_cons, List.foldlM_nil]
  rw [h']
  rfl

namespace Zone
variable {qm : ℝ} {field : FieldFn} {x p : ℝ → Vec} {lo τ hi : ℝ} {ns : List Vec} {σ ρ R F L M A D : ℝ}

/-- one step of the tracking within the zone -/
theorem step (Z : Zone qm field x p lo τ hi ns σ ρ R F L M A D) {h t : ℝ} (hh : 0 < h) {q : Particle} (hq : Consts qm h t q) (h1 : lo ≤ t)
    (h2 : t + h ≤ hi) (he : err x p q t + (2 * SpeedOfLight + 2 * F) * h ≤ ρ) :
    ∃ q', q.StepVay field = .ok q' ∧ Consts qm h (t + h) q' ∧ q'.XCur = q.XCur + velOf q.VYp * (SpeedOfLight * h) ∧
      (q'.PCur - q'.VYp).norm ≤ 2 * F * h ∧
      err x p q' (t + h) ≤ err x p q t + (2 * SpeedOfLight + 2 * F) * h ∧
      (h ≤ 1 → ((t + h ≤ τ ∧ ∀ n ∈ ns, dot (q'.XCur - x τ) n < 0) ∨ (τ ≤ t ∧ ∀ n ∈ ns, 0 < dot (q'.XCur - x τ) n)) →
        err x p q' (t + h) ≤ (1 + (2 * SpeedOfLight + |qm| * (L / SpeedOfLight + L) + 2 * (|qm| * (L / SpeedOfLight + L)) * SpeedOfLight + 2 * (|qm| * M)) * h) *
          err x p q t + (A + |qm| * (L / SpeedOfLight + L) * A + 3 * (|qm| * M) * F + D) * h ^ 2) := by
  have hc := SpeedOfLight_pos
  have hF := Z.hF
  have hpos := Z.pos t (t + h) h1 (by linarith) h2
  have hmom := Z.mom t (t + h) h1 (by linarith) h2
  rw [add_sub_cancel_left] at hpos hmom
  set X' := q.XCur + velOf q.VYp * (SpeedOfLight * h) with hX'
  have hXe : (X' - x (t + h)).norm ≤ (q.XCur - x t).norm + 2 * SpeedOfLight * h := by
    have e : X' - x (t + h) = (q.XCur - x t) + velOf q.VYp * (SpeedOfLight * h) - (x (t + h) - x t) := by
      rw [hX']
      abel
    rw [e]
    have n1 := norm_sub_le' ((q.XCur - x t) + velOf q.VYp * (SpeedOfLight * h)) (x (t + h) - x t)
    have n2 := Vec.norm_add_le (q.XCur - x t) (velOf q.VYp * (SpeedOfLight * h))
    rw [Vec.norm_mul, abs_of_nonneg (by positivity)] at n2
    have n3 := mul_le_mul_of_nonneg_right (velOf_le q.VYp) (show 0 ≤ SpeedOfLight * h by positivity)
    linarith
  have hVn := Vec.norm_nonneg (q.VYp - p t)
  have hXρ : (X' - x (t + h)).norm ≤ ρ := by
    unfold err at he
    have : 0 ≤ F * h := by positivity
    linarith
  obtain ⟨EB, hE, hEF⟩ := Z.defined (t + h) (by linarith) h2 X' hXρ
  obtain ⟨q', g1, g2, g3, g4, g5⟩ := step_of hq hE
  have hk := kick_le (h := h) (u := q.VYp) (u' := q'.VYp) hh.le hEF
  have hk2 := half_kick_le (h := h) (u := q.VYp) hh.le hEF
  have hV : (q'.VYp - q.VYp).norm ≤ F * h := by
    have e : q'.VYp - q.VYp = (EB.E / SpeedOfLight * (2 : ℝ) + cross (velOf q.VYp + velOf q'.VYp) EB.B) * (qm * (h / 2)) := by
      conv_lhs => rw [g4]
      abel
    rw [e]
    exact hk
  refine ⟨q', g1, g2, g3, ?_, ?_, ?_⟩
  · have e : q'.PCur - q'.VYp = (EB.E / SpeedOfLight + cross (velOf q.VYp) EB.B) * (qm * (h / 2)) - (q'.VYp - q.VYp) := by
      rw [g5]
      abel
    rw [e]
    have := norm_sub_le' ((EB.E / SpeedOfLight + cross (velOf q.VYp) EB.B) * (qm * (h / 2))) (q'.VYp - q.VYp)
    linarith
  · unfold err
    rw [g3]
    have e : q'.VYp - p (t + h) = (q.VYp - p t) + (q'.VYp - q.VYp) - (p (t + h) - p t) := by abel
    have n1 := norm_sub_le' ((q.VYp - p t) + (q'.VYp - q.VYp)) (p (t + h) - p t)
    rw [← e] at n1
    have n2 := Vec.norm_add_le (q.VYp - p t) (q'.VYp - q.VYp)
    linarith
  · intro hh1 hcase
    rw [g3] at hcase
    obtain ⟨E, B, EB', k1, k2, k3, k4, k5⟩ := Z.good t (t + h) h1 (by linarith) h2 X' hXρ hcase
    rw [hE] at k1
    cases k1
    rw [add_sub_cancel_left] at k2
    have hx2 := Z.pos2 t (t + h) h1 (by linarith) h2
    rw [add_sub_cancel_left] at hx2
    unfold err
    rw [g3]
    exact one_step hh.le hh1 Z.hL Z.hM Z.hA hX' g4 hx2 k2 k3 k4 k5 hmom hV

/-- Tracking through the zone.  A particle whose deviation at a time before the passage is of the order of the time step is followed to the end of the zone. -/
theorem carry (Z : Zone qm field x p lo τ hi ns σ ρ R F L M A D) {C0 : ℝ} (hC0 : 0 ≤ C0) :
    ∃ C h0 : ℝ, 0 < h0 ∧ ∀ h, 0 < h → h ≤ h0 → ∀ s q, lo ≤ s → s ≤ τ → Consts qm h s q → err x p q s ≤ C0 * h → ∀ k : ℕ, s + k * h ≤ hi →
      ∃ q', q.steps (List.replicate k field) = .ok q' ∧ Consts qm h (s + k * h) q' ∧ err x p q' (s + k * h) ≤ C * h ∧
        (0 < k → (q'.PCur - q'.VYp).norm ≤ 2 * F * h) := by
  have hc := SpeedOfLight_pos
  have hF := Z.hF
  have hL := Z.hL
  have hM := Z.hM
  have hA := Z.hA
  have hD := Z.hD
  have hρ := Z.hρ
  have hR := Z.hR
  set G := 2 * SpeedOfLight + 2 * F with hG
  have hG0 : 0 ≤ G := by positivity
  set Λ := 2 * SpeedOfLight + |qm| * (L / SpeedOfLight + L) + 2 * (|qm| * (L / SpeedOfLight + L)) * SpeedOfLight + 2 * (|qm| * M) with hΛ
  have hΛ0 : 0 ≤ Λ := by positivity
  set N := A + |qm| * (L / SpeedOfLight + L) * A + 3 * (|qm| * M) * F + D with hN
  have hN0 : 0 ≤ N := by positivity
  refine ⟨growth C0 (hi - lo) Λ N G R (SpeedOfLight * R) σ, min 1 (ρ / (2 * (C0 + 1))), lt_min one_pos (by positivity), ?_⟩
  intro h hh hh0 s q hs hsτ hq hq0
  have hh1 : h ≤ 1 := hh0.trans (min_le_left _ _)
  have hk0 : ∀ k : ℕ, (0 : ℝ) ≤ k * h := fun k => by positivity
  have hC0ρ : C0 * h ≤ ρ / 2 := by
    have := hh0.trans (min_le_right _ _)
    rw [le_div_iff₀ (by positivity)] at this
    nlinarith
  -- all steps succeed
  have run : ∀ k : ℕ, s + k * h ≤ hi → ∃ q', q.steps (List.replicate k field) = .ok q' ∧ Consts qm h (s + k * h) q' ∧ err x p q' (s + k * h) ≤ C0 * h + G * (k * h) ∧
      (0 < k → (q'.PCur - q'.VYp).norm ≤ 2 * F * h) := by
    intro k
    induction k with
    | zero =>
      intro _
      refine ⟨q, rfl, ?_, ?_, fun h => absurd h (lt_irrefl _)⟩
      · simpa using hq
      · simpa using hq0
    | succ k ih =>
      intro hk
      push_cast at hk
      obtain ⟨q1, a1, a2, a3, -⟩ := ih (by linarith)
      have hk' : s + k * h + h ≤ hi := by linarith
      have hfit : err x p q1 (s + k * h) + G * h ≤ ρ := by
        have h3 : G * (k * h + h) ≤ G * (hi - lo) := mul_le_mul_of_nonneg_left (by linarith) hG0
        have := Z.short
        linarith
      obtain ⟨q', b1, b2, -, b4, b5, -⟩ := Z.step hh a2 (by linarith [hk0 k]) hk' hfit
      refine ⟨q', steps_succ a1 b1, ?_, ?_, fun _ => b4⟩
      · push_cast
        rw [show s + ((k:ℝ) + 1) * h = s + k * h + h by ring]
        exact b2
      · push_cast
        rw [show s + ((k:ℝ) + 1) * h = s + k * h + h by ring]
        linarith
  intro K hK
  -- the states on the way
  let Q : ℕ → Particle := fun k => match q.steps (List.replicate k field) with
    | .ok q' => q'
    | .error _ => q
  have hkK : ∀ k ≤ K, s + k * h ≤ hi := fun k hk => by
    have : (k : ℝ) * h ≤ K * h := mul_le_mul_of_nonneg_right (by exact_mod_cast hk) hh.le
    linarith
  have hQ : ∀ k ≤ K, q.steps (List.replicate k field) = .ok (Q k) ∧ Consts qm h (s + k * h) (Q k) ∧ err x p (Q k) (s + k * h) ≤ C0 * h + G * (k * h) ∧
      (0 < k → ((Q k).PCur - (Q k).VYp).norm ≤ 2 * F * h) := by
    intro k hk
    obtain ⟨q', a1, a2, a3, a4⟩ := run k (hkK k hk)
    have : Q k = q' := by simp only [Q, a1]
    rw [this]
    exact ⟨a1, a2, a3, a4⟩
  clear_value Q
  have hstep : ∀ k < K, (Q (k + 1)).XCur = (Q k).XCur + velOf (Q k).VYp * (SpeedOfLight * h) ∧
      err x p (Q (k + 1)) (s + k * h + h) ≤ err x p (Q k) (s + k * h) + G * h ∧
      (((s + k * h + h ≤ τ ∧ ∀ n ∈ ns, dot ((Q (k + 1)).XCur - x τ) n < 0) ∨ (τ ≤ s + k * h ∧ ∀ n ∈ ns, 0 < dot ((Q (k + 1)).XCur - x τ) n)) →
        err x p (Q (k + 1)) (s + k * h + h) ≤ (1 + Λ * h) * err x p (Q k) (s + k * h) + N * h ^ 2) := by
    intro k hk
    obtain ⟨a1, a2, a3, -⟩ := hQ k hk.le
    obtain ⟨b1, -⟩ := hQ (k + 1) hk
    have hk1 := hkK (k + 1) hk
    push_cast at hk1
    have hk' : s + k * h + h ≤ hi := by linarith
    have hfit : err x p (Q k) (s + k * h) + G * h ≤ ρ := by
      have h3 : G * (k * h + h) ≤ G * (hi - lo) := mul_le_mul_of_nonneg_left (by linarith) hG0
      have := Z.short
      linarith
    obtain ⟨q', c1, -, c3, -, c5, c6⟩ := Z.step hh a2 (by linarith [hk0 k]) hk' hfit
    have e := steps_succ a1 c1
    rw [b1] at e
    cases e
    exact ⟨c3, c5, c6 hh1⟩
  have small : ∀ k ≤ K, err x p (Q k) (s + k * h) ≤ ρ := by
    intro k hk
    have h1 := (hQ k hk).2.2.1
    have h3 : G * (k * h) ≤ G * (hi - lo) := mul_le_mul_of_nonneg_left (by linarith [hkK k hk]) hG0
    have := Z.short
    linarith
  have key := phases (ι := {n // n ∈ ns}) (e := fun k => err x p (Q k) (s + k * h)) (t := fun k => s + k * h)
    (D := fun n k => dot ((Q k).XCur - x τ) n.1) (K := K) (h := h) (τ := τ) (s0 := s) (T := hi - lo) (C0 := C0) (Λ := Λ) (N := N) (G := G) (R := R)
    (S := SpeedOfLight * R) (σ := σ) hh hΛ0 hN0 hG0 hR (by positivity) Z.hσ hC0 (fun _ => rfl) hsτ
    (fun k hk => by have := hkK k hk; linarith) (by linarith [Z.hlo, Z.hhi])
    (by
      have := (hQ 0 (Nat.zero_le _)).2.2.1
      simpa using this)
    (fun k hk => by
      have := (hstep k hk).2.1
      push_cast
      rw [show s + ((k:ℝ) + 1) * h = s + k * h + h by ring]
      exact this)
    (fun k hk h1 h2 => by
      push_cast at h1 ⊢
      rw [show s + ((k:ℝ) + 1) * h = s + k * h + h by ring] at h1 ⊢
      exact (hstep k hk).2.2 (Or.inl ⟨h1, fun n hn => h2 ⟨n, hn⟩⟩))
    (fun k hk h1 h2 => by
      push_cast
      rw [show s + ((k:ℝ) + 1) * h = s + k * h + h by ring]
      exact (hstep k hk).2.2 (Or.inr ⟨h1, fun n hn => h2 ⟨n, hn⟩⟩))
    (fun k hk n => by
      rw [(hstep k hk).1, show (Q k).XCur + velOf (Q k).VYp * (SpeedOfLight * h) - x τ = ((Q k).XCur - x τ) + velOf (Q k).VYp * (SpeedOfLight * h) by abel,
        dot_add_left, dot_mul_left]
      have h1 := Z.speed (s + k * h) (by linarith [hk0 k]) (hkK k hk.le) (Q k).VYp
        (by have := small k hk.le
            unfold err at this
            linarith [Vec.norm_nonneg ((Q k).XCur - x (s + k * h))]) n.1 n.2
      have h2 := mul_le_mul_of_nonneg_right h1 hh.le
      linarith)
    (fun k hk h1 n => by
      have hlo : lo ≤ s + k * h := by
        have : (0:ℝ) ≤ k * h := by positivity
        linarith
      have e : (Q k).XCur - x τ = ((Q k).XCur - x (s + k * h)) + (x (s + k * h) - x τ) := by abel
      have b1 := abs_dot_le ((Q k).XCur - x (s + k * h)) n.1
      have b2 := abs_dot_le (x (s + k * h) - x τ) n.1
      have b3 := Z.approach (s + k * h) hlo h1 n.1 n.2
      have b4 := Z.pos (s + k * h) τ hlo h1 Z.hhi
      rw [Vec.norm_sub_comm] at b4
      have sz := Z.size n.1 n.2
      have b5 : ((Q k).XCur - x (s + k * h)).norm * n.1.norm ≤ R * err x p (Q k) (s + k * h) := by
        rw [mul_comm]
        refine mul_le_mul sz ?_ (Vec.norm_nonneg _) hR
        unfold err
        linarith [Vec.norm_nonneg ((Q k).VYp - p (s + k * h))]
      have b6 : (x (s + k * h) - x τ).norm * n.1.norm ≤ SpeedOfLight * (τ - (s + k * h)) * R :=
        mul_le_mul b4 sz (Vec.norm_nonneg _) (mul_nonneg hc.le (by linarith))
      rw [abs_le] at b1 b2
      simp only [e, dot_add_left]
      constructor
      · linarith [b1.2]
      · linarith [b1.1, b2.1])
    K le_rfl
  obtain ⟨a1, a2, -, a4⟩ := hQ K le_rfl
  exact ⟨Q K, a1, a2, key, a4⟩

end Zone
end Edge
end Teufel
