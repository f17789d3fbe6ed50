import Verif.Model.Elements
import Verif.Lemmas.Vec
import Mathlib.Topology.Algebra.Order.LiminfLimsup

/-! # C24, C25: dipole magnets -/

namespace Teufel
open Vec

/-- C24: a hard edge dipole yields its nominal field strictly inside both faces, zero elsewhere, no electric field. -/
theorem C24_hard_edge (d : HardEdgeDipole) (t : ℝ) (X : Vec) : ∃ F, d.LocalField t X = .ok F ∧ F.E = 0 ∧
    (dot (X - d.p_1) d.n_1 < 0 → dot (X - d.p_2) d.n_2 < 0 → F.B = d.B_val) ∧
    (0 ≤ dot (X - d.p_1) d.n_1 ∨ 0 ≤ dot (X - d.p_2) d.n_2 → F.B = 0) := by
  refine ⟨_, rfl, rfl, ?_, ?_⟩
  · intro h1 h2; simp only; rw [if_pos ⟨h1, h2⟩]
  · intro h; simp only; rw [if_neg]; rintro ⟨h1, h2⟩; rcases h with h | h <;> linarith

/-- C24: as an element of the lattice the magnet is fixed in space and time (its base class has no offset). -/
theorem C24_static (d : HardEdgeDipole) (t t' : ℝ) (X : Vec) : (LocalizedField d.LocalField 0 0).field t X = d.LocalField t' X := by
  simp only [LocalizedField, sub_zero]
  rfl

/-- C24, non-vacuity: a magnet between z=0 and z=1 with a point inside and a point on the face -/
example : let d : HardEdgeDipole := ⟨⟨0, 1, 0⟩, 0, ⟨0, 0, -1⟩, ⟨0, 0, 1⟩, ⟨0, 0, 1⟩⟩
    (dot ((⟨0, 0, 1/2⟩ : Vec) - d.p_1) d.n_1 < 0 ∧ dot ((⟨0, 0, 1/2⟩ : Vec) - d.p_2) d.n_2 < 0) ∧
    0 ≤ dot ((⟨0, 0, 1⟩ : Vec) - d.p_2) d.n_2 := by
  norm_num [dot]

/-- the distance from face 1, positive outside, and likewise for face 2 -/
noncomputable def SoftEdgeDipole.d1 (d : SoftEdgeDipole) (X : Vec) : ℝ := dot (X - d.p_1) d.n_1
noncomputable def SoftEdgeDipole.d2 (d : SoftEdgeDipole) (X : Vec) : ℝ := dot (X - d.p_2) d.n_2

/-- C25: the field is the nominal field times a factor `s` which is smaller than one in magnitude. The factor is
positive exactly if `d1/t1 + d2/t2 < 0`, in particular everywhere inside. -/
theorem C25_bounded (d : SoftEdgeDipole) (h1 : 0 < d.t_1) (h2 : 0 < d.t_2) (t : ℝ) (X : Vec) :
    ∃ s : ℝ, d.LocalField t X = .ok ⟨0, d.B_val * s⟩ ∧ |s| < 1 ∧ (0 < s ↔ d.d1 X / d.t_1 + d.d2 X / d.t_2 < 0) := by
  simp only [SoftEdgeDipole.LocalField]
  rw [if_neg (by rintro (h | h) <;> linarith)]
  refine ⟨_, rfl, ?_, ?_⟩
  · have hp := Real.pi_pos
    have a1 := Real.arctan_lt_pi_div_two (2 * dot (X - d.p_1) d.n_1 / d.t_1)
    have a2 := Real.neg_pi_div_two_lt_arctan (2 * dot (X - d.p_1) d.n_1 / d.t_1)
    have b1 := Real.arctan_lt_pi_div_two (2 * dot (X - d.p_2) d.n_2 / d.t_2)
    have b2 := Real.neg_pi_div_two_lt_arctan (2 * dot (X - d.p_2) d.n_2 / d.t_2)
    have l1 : Real.arctan (2 * dot (X - d.p_1) d.n_1 / d.t_1) / Pi < 1 / 2 := by unfold Pi; rw [div_lt_iff₀ hp]; linarith
    have l2 : -(1 / 2) < Real.arctan (2 * dot (X - d.p_1) d.n_1 / d.t_1) / Pi := by unfold Pi; rw [lt_div_iff₀ hp]; linarith
    have l3 : Real.arctan (2 * dot (X - d.p_2) d.n_2 / d.t_2) / Pi < 1 / 2 := by unfold Pi; rw [div_lt_iff₀ hp]; linarith
    have l4 : -(1 / 2) < Real.arctan (2 * dot (X - d.p_2) d.n_2 / d.t_2) / Pi := by unfold Pi; rw [lt_div_iff₀ hp]; linarith
    rw [abs_lt]; constructor <;> linarith
  · have hp : 0 < Pi := Pi_pos
    have e : 1 - (Real.arctan (2 * dot (X - d.p_1) d.n_1 / d.t_1) / Pi + 1 / 2) - (Real.arctan (2 * dot (X - d.p_2) d.n_2 / d.t_2) / Pi + 1 / 2)
      = -(Real.arctan (2 * dot (X - d.p_1) d.n_1 / d.t_1) + Real.arctan (2 * dot (X - d.p_2) d.n_2 / d.t_2)) / Pi := by ring
    rw [e]
    have e2 : 0 < -(Real.arctan (2 * dot (X - d.p_1) d.n_1 / d.t_1) + Real.arctan (2 * dot (X - d.p_2) d.n_2 / d.t_2)) / Pi ↔
        Real.arctan (2 * dot (X - d.p_1) d.n_1 / d.t_1) < Real.arctan (-(2 * dot (X - d.p_2) d.n_2 / d.t_2)) := by
      rw [lt_div_iff₀ hp, zero_mul, Real.arctan_neg]; constructor <;> intro h <;> linarith
    rw [e2, Real.arctan_strictMono.lt_iff_lt]
    simp only [SoftEdgeDipole.d1, SoftEdgeDipole.d2]
    have q1 : 2 * dot (X - d.p_1) d.n_1 / d.t_1 = 2 * (dot (X - d.p_1) d.n_1 / d.t_1) := by ring
    have q2 : 2 * dot (X - d.p_2) d.n_2 / d.t_2 = 2 * (dot (X - d.p_2) d.n_2 / d.t_2) := by ring
    rw [q1, q2]
    constructor <;> intro h <;> linarith

/-- C25: moving outwards through face 1 (without approaching face 2) strictly decreases the field factor; the
factor depends on the distances only. The same for face 2. -/
theorem C25_monotone (d : SoftEdgeDipole) (h1 : 0 < d.t_1) (h2 : 0 < d.t_2) (t : ℝ) (X Y : Vec) :
    ∃ s s' : ℝ, d.LocalField t X = .ok ⟨0, d.B_val * s⟩ ∧ d.LocalField t Y = .ok ⟨0, d.B_val * s'⟩ ∧
      (d.d1 X < d.d1 Y → d.d2 X ≤ d.d2 Y → s' < s) ∧ (d.d1 X ≤ d.d1 Y → d.d2 X < d.d2 Y → s' < s) := by
  have hn : ¬ (d.t_1 = 0 ∨ d.t_2 = 0) := by rintro (h | h) <;> linarith
  have hp : 0 < Pi := Pi_pos
  simp only [SoftEdgeDipole.LocalField, if_neg hn]
  refine ⟨_, _, rfl, rfl, ?_, ?_⟩
  · intro ha hb
    simp only [SoftEdgeDipole.d1, SoftEdgeDipole.d2] at ha hb
    have m1 : Real.arctan (2 * dot (X - d.p_1) d.n_1 / d.t_1) / Pi < Real.arctan (2 * dot (Y - d.p_1) d.n_1 / d.t_1) / Pi :=
      div_lt_div_of_pos_right (Real.arctan_strictMono (div_lt_div_of_pos_right (by linarith) h1)) hp
    have m2 : Real.arctan (2 * dot (X - d.p_2) d.n_2 / d.t_2) / Pi ≤ Real.arctan (2 * dot (Y - d.p_2) d.n_2 / d.t_2) / Pi :=
      div_le_div_of_nonneg_right (Real.arctan_strictMono.monotone (div_le_div_of_nonneg_right (by linarith) h2.le)) hp.le
    linarith
  · intro ha hb
    simp only [SoftEdgeDipole.d1, SoftEdgeDipole.d2] at ha hb
    have m1 : Real.arctan (2 * dot (X - d.p_1) d.n_1 / d.t_1) / Pi ≤ Real.arctan (2 * dot (Y - d.p_1) d.n_1 / d.t_1) / Pi :=
      div_le_div_of_nonneg_right (Real.arctan_strictMono.monotone (div_le_div_of_nonneg_right (by linarith) h1.le)) hp.le
    have m2 : Real.arctan (2 * dot (X - d.p_2) d.n_2 / d.t_2) / Pi < Real.arctan (2 * dot (Y - d.p_2) d.n_2 / d.t_2) / Pi :=
      div_lt_div_of_pos_right (Real.arctan_strictMono (div_lt_div_of_pos_right (by linarith) h2)) hp
    linarith

/-- C25: deep inside (both distances to minus infinity) the nominal field is approached: for any required accuracy
there is a depth from which on the field factor is that close to one. -/
theorem C25_deep_inside (d : SoftEdgeDipole) (h1 : 0 < d.t_1) (h2 : 0 < d.t_2) (ε : ℝ) (hε : 0 < ε) :
    ∃ D : ℝ, ∀ (t : ℝ) (X : Vec), d.d1 X < -D → d.d2 X < -D → ∃ s, d.LocalField t X = .ok ⟨0, d.B_val * s⟩ ∧ 1 - ε < s ∧ s < 1 := by
  have hn : ¬ (d.t_1 = 0 ∨ d.t_2 = 0) := by rintro (h | h) <;> linarith
  have hp : 0 < Pi := Pi_pos
  have ht := Real.tendsto_arctan_atBot
  have hev : ∀ᶠ x in Filter.atBot, Real.arctan x < -(Real.pi / 2) + Pi * ε / 2 := by
    apply (ht.mono_right nhdsWithin_le_nhds).eventually_lt_const
    have : 0 < Pi * ε := mul_pos hp hε
    linarith
  obtain ⟨B, hB⟩ := Filter.eventually_atBot.mp hev
  refine ⟨max (-(B * d.t_1 / 2)) (-(B * d.t_2 / 2)), ?_⟩
  intro t X hx1 hx2
  simp only [SoftEdgeDipole.LocalField, if_neg hn]
  refine ⟨_, rfl, ?_⟩
  simp only [SoftEdgeDipole.d1, SoftEdgeDipole.d2] at hx1 hx2
  have k1 := le_max_left (-(B * d.t_1 / 2)) (-(B * d.t_2 / 2))
  have k2 := le_max_right (-(B * d.t_1 / 2)) (-(B * d.t_2 / 2))
  have b1 := hB (2 * dot (X - d.p_1) d.n_1 / d.t_1) (by rw [div_le_iff₀ h1]; linarith)
  have b2 := hB (2 * dot (X - d.p_2) d.n_2 / d.t_2) (by rw [div_le_iff₀ h2]; linarith)
  have c1 := Real.neg_pi_div_two_lt_arctan (2 * dot (X - d.p_1) d.n_1 / d.t_1)
  have c2 := Real.neg_pi_div_two_lt_arctan (2 * dot (X - d.p_2) d.n_2 / d.t_2)
  have hpi : Pi = Real.pi := rfl
  have e1 : Real.arctan (2 * dot (X - d.p_1) d.n_1 / d.t_1) / Pi < -(1 / 2) + ε / 2 := by
    rw [div_lt_iff₀ hp]; rw [hpi] at b1 ⊢; linarith
  have e2 : Real.arctan (2 * dot (X - d.p_2) d.n_2 / d.t_2) / Pi < -(1 / 2) + ε / 2 := by
    rw [div_lt_iff₀ hp]; rw [hpi] at b2 ⊢; linarith
  have e3 : -(1 / 2) < Real.arctan (2 * dot (X - d.p_1) d.n_1 / d.t_1) / Pi := by
    rw [lt_div_iff₀ hp]; rw [hpi]; linarith
  have e4 : -(1 / 2) < Real.arctan (2 * dot (X - d.p_2) d.n_2 / d.t_2) / Pi := by
    rw [lt_div_iff₀ hp]; rw [hpi]; linarith
  constructor <;> linarith

/-- C25: the documented transition length.  With the other face far away (its contribution being `q`) the factor is
`3/4 - q` at half a transition length inside a face, `1/2 - q` on the face and `1/4 - q` half a length outside. -/
theorem C25_transition_length (d : SoftEdgeDipole) (h1 : 0 < d.t_1) (h2 : 0 < d.t_2) (t : ℝ) (X : Vec) :
    ∃ s : ℝ, d.LocalField t X = .ok ⟨0, d.B_val * s⟩ ∧
      (let q2 := Real.arctan (2 * d.d2 X / d.t_2) / Real.pi + 1 / 2
       (d.d1 X = -d.t_1 / 2 → s = 3 / 4 - q2) ∧ (d.d1 X = 0 → s = 1 / 2 - q2) ∧ (d.d1 X = d.t_1 / 2 → s = 1 / 4 - q2)) ∧
      (let q1 := Real.arctan (2 * d.d1 X / d.t_1) / Real.pi + 1 / 2
       (d.d2 X = -d.t_2 / 2 → s = 3 / 4 - q1) ∧ (d.d2 X = 0 → s = 1 / 2 - q1) ∧ (d.d2 X = d.t_2 / 2 → s = 1 / 4 - q1)) := by
  have hn : ¬ (d.t_1 = 0 ∨ d.t_2 = 0) := by rintro (h | h) <;> linarith
  have hp : Real.pi ≠ 0 := Real.pi_ne_zero
  have hpi : Pi = Real.pi := rfl
  simp only [SoftEdgeDipole.LocalField, if_neg hn]
  have v1 : ∀ τ : ℝ, 0 < τ → Real.arctan (2 * (-τ / 2) / τ) / Real.pi = -(1 / 4) := by
    intro τ hτ
    rw [show 2 * (-τ / 2) / τ = -1 by field_simp, Real.arctan_neg, Real.arctan_one]; field_simp
  have v2 : ∀ τ : ℝ, 0 < τ → Real.arctan (2 * (τ / 2) / τ) / Real.pi = 1 / 4 := by
    intro τ hτ
    rw [show 2 * (τ / 2) / τ = 1 by field_simp, Real.arctan_one]; field_simp
  have v3 : ∀ τ : ℝ, 0 < τ → Real.arctan (2 * 0 / τ) / Real.pi = 0 := by
    intro τ hτ; simp
  refine ⟨_, rfl, ⟨?_, ?_, ?_⟩, ⟨?_, ?_, ?_⟩⟩ <;> intro h <;> simp only [SoftEdgeDipole.d1, SoftEdgeDipole.d2] at h ⊢ <;> rw [hpi, h]
  · rw [v1 _ h1]; ring
  · rw [v3 _ h1]; ring
  · rw [v2 _ h1]; ring
  · rw [v1 _ h2]; ring
  · rw [v3 _ h2]; ring
  · rw [v2 _ h2]; ring

/-- C25, non-vacuity -/
example : ∃ (d : SoftEdgeDipole) (X : Vec), 0 < d.t_1 ∧ 0 < d.t_2 ∧ d.d1 X = -d.t_1 / 2 :=
  ⟨⟨⟨0, 1, 0⟩, 0, ⟨0, 0, -1⟩, 1, ⟨0, 0, 1⟩, ⟨0, 0, 1⟩, 1⟩, ⟨0, 0, 1/2⟩, by norm_num [SoftEdgeDipole.d1, dot]⟩

end Teufel
