import Verif.Lemmas.FELStep

/-! # Invariants of the FEL interaction over its history -/

namespace Teufel
open Vec
namespace FEL

/-- what the constructors establish -/
structure Fresh (f : FEL) : Prop where
  sized : f.Sized
  int : (f.N : Int) < 2 ^ 31
  ds : f.ds = f.dt * SpeedOfLight
  time : f.time = 0
  steps : f.steps = 0
  head : f.head = f.origin
  still : f.prev = f.E
  fields : f.fields = [f.E]
  currents : f.currents = [List.replicate f.N 0]

theorem fresh_setup (N : Nat) (h : (N : Int) < 2 ^ 31) (dt : ℝ) (pos prop ex ey : Vec) (o : Option Int) (zR w0 zw : ℝ) :
    (setup N dt (dt * SpeedOfLight) pos prop ex ey o zR w0 zw).Fresh :=
  ⟨⟨by simp [setup], by simp [setup]⟩, h, rfl, rfl, rfl, rfl, rfl, rfl, rfl⟩

theorem fresh_seed {f f' : FEL} (h : f.Fresh) {s : SeedInput} (hs : f.seed s = .ok f') : f'.Fresh := by
  unfold seed at hs
  split at hs
  · cases hs
  · injection hs with hs
    subst hs
    exact ⟨⟨by simp, by simp⟩, h.int, h.ds, h.time, rfl, h.head, rfl, rfl, rfl⟩

/-- the parts of the input file the constructor evaluates -/
theorem ofInput_inv {dt : ℝ} {i : Input} {f : FEL} (h : FEL.ofInput dt i = .ok f) :
    ∃ (n : Int) (pos p prop pol ex : Vec) (o : Option Int) (zR w0 zw : ℝ), i.N = some n ∧ 0 ≤ n ∧ i.position = some pos ∧ i.prop = some p ∧ normalizeE p = .ok prop ∧
      i.pol = some pol ∧ normalizeE (pol - prop * dot pol prop) = .ok ex ∧
      (i.log = none → o = none) ∧
      (setup n.toNat dt (dt * SpeedOfLight) pos prop ex (cross prop ex) o zR w0 zw = f ∨
       ∃ s, i.seed = some s ∧ (setup n.toNat dt (dt * SpeedOfLight) pos prop ex (cross prop ex) o zR w0 zw).seed s = .ok f) := by
  obtain ⟨N, position, prop, pol, log, mode, sd⟩ := i
  unfold ofInput at h
  simp only [pure, Except.pure, bind, Except.bind] at h
  cases N with
  | none => cases h
  | some n =>
  cases position with
  | none => cases h
  | some pos =>
  cases prop with
  | none => cases h
  | some p =>
  cases pol with
  | none => cases h
  | some pl =>
  simp only at h
  cases ho : logStep log with
  | error e => rw [ho] at h; cases h
  | ok o =>
  rw [ho] at h
  cases mode with
  | none => cases h
  | some m =>
  obtain ⟨zR, w0, zw⟩ := m
  by_cases hn : n < 0
  · simp only [if_pos hn] at h; cases h
  simp only [if_neg hn] at h
  cases hp : normalizeE p with
  | error e => rw [hp] at h; cases h
  | ok pr =>
  rw [hp] at h
  simp only at h
  cases he : normalizeE (pl - pr * dot pl pr) with
  | error e => rw [he] at h; cases h
  | ok ex =>
  rw [he] at h
  refine ⟨n, pos, p, pr, pl, ex, o, zR, w0, zw, rfl, by omega, rfl, rfl, hp, rfl, he, ?_, ?_⟩
  · intro hl
    dsimp only at hl
    subst hl
    injection ho with ho
    exact ho.symm
  · cases sd with
    | none => injection h with h; exact Or.inl h
    | some s => exact Or.inr ⟨s, rfl, h⟩

theorem Constructed.fresh {f : FEL} (h : Constructed f) : f.Fresh := by
  cases h with
  | default hn h =>
    unfold FEL.default at h
    split at h
    · cases h
    · rename_i hc
      injection h with h
      subst h
      exact fresh_setup _ (by omega) _ _ _ _ _ _ _ _ _
  | ofInput hn h =>
    obtain ⟨n, pos, p, prop, pol, ex, o, zR, w0, zw, h1, h2, _, _, _, _, _, _, hf⟩ := ofInput_inv h
    have hb : ((n.toNat : Nat) : Int) < 2 ^ 31 := by have := hn n h1; omega
    cases hf with
    | inl hf => subst hf; exact fresh_setup _ hb _ _ _ _ _ _ _ _ _
    | inr hf => obtain ⟨s, _, hs⟩ := hf; exact fresh_seed (fresh_setup _ hb _ _ _ _ _ _ _ _ _) hs

/-- what holds in every state -/
structure Inv (f : FEL) : Prop where
  sized : f.Sized
  int : (f.N : Int) < 2 ^ 31
  ds : f.ds = f.dt * SpeedOfLight
  time : f.time = (f.steps : ℝ) * f.dt
  head : f.head = f.origin + f.prop * ((f.steps : ℝ) * f.ds)
  records : f.fields.length = f.currents.length
  fields : ∀ r ∈ f.fields, List.length r = f.N
  currents : ∀ r ∈ f.currents, List.length r = f.N

theorem Fresh.inv {f : FEL} (h : f.Fresh) : f.Inv where
  sized := h.sized
  int := h.int
  ds := h.ds
  time := by rw [h.time, h.steps]; simp
  head := by rw [h.head, h.steps]; ext <;> simp
  records := by rw [h.fields, h.currents]; rfl
  fields := by rw [h.fields]; intro r hr; simp only [List.mem_singleton] at hr; rw [hr, h.sized.E]
  currents := by rw [h.currents]; intro r hr; simp only [List.mem_singleton] at hr; rw [hr]; simp

theorem Inv.advance {f f' : FEL} {J : Nat → ℝ} (h : f.Inv) (ha : f.Advanced f' J) {a b : List (List ℝ)}
    (h1 : f'.fields = f.fields ++ a) (h2 : f'.currents = f.currents ++ b) (hl : a.length = b.length)
    (ha' : ∀ r ∈ a, List.length r = f.N) (hb' : ∀ r ∈ b, List.length r = f.N) : f'.Inv where
  sized := ha.sized
  int := by rw [ha.N]; exact h.int
  ds := by rw [ha.ds, ha.dt]; exact h.ds
  time := by rw [ha.time, ha.steps, ha.dt, h.time]; push_cast; ring
  head := by
    rw [ha.head, ha.steps, ha.ds, ha.prop, ha.origin, h.head]
    ext <;> simp <;> ring
  records := by rw [h1, h2, List.length_append, List.length_append, h.records, hl]
  fields := by
    rw [h1, ha.N]; intro r hr
    rcases List.mem_append.mp hr with hr | hr
    · exact h.fields r hr
    · exact ha' r hr
  currents := by
    rw [h2, ha.N]; intro r hr
    rcases List.mem_append.mp hr with hr | hr
    · exact h.currents r hr
    · exact hb' r hr

theorem Reachable.inv {f : FEL} (h : Reachable f) : f.Inv := by
  induction h with
  | start h => exact h.fresh.inv
  | init b _ hi ih =>
    obtain ⟨_, _, _, ha, h1, h2⟩ := init_inv ih.sized hi
    exact ih.advance ha (a := []) (b := []) (by rw [h1, List.append_nil]) (by rw [h2, List.append_nil]) rfl (by simp) (by simp)
  | step b _ hs ih =>
    obtain ⟨_, _, ps, J, due, _, _, hJ, _, ha, h1, h2⟩ := step_inv ih.sized hs
    refine ih.advance ha h1 h2 ?_ ?_ ?_
    · cases due <;> rfl
    · cases due with
      | true => intro r hr; simp only [if_true, List.mem_singleton] at hr; rw [hr, ha.sized.E, ha.N]
      | false => simp
    · cases due with
      | true => intro r hr; simp only [if_true, List.mem_singleton] at hr; rw [hr, hJ]
      | false => simp

theorem Course.reachable {h : Nat → FEL} {b : Nat → Beam} {n : Nat} (hc : Course h b n) : ∀ k ≤ n, Reachable (h k) := by
  intro k
  induction k with
  | zero => intro _; exact .start hc.start
  | succ k ih =>
    intro hk
    cases k with
    | zero => exact .init (b 0) (ih (by omega)) (hc.first hk)
    | succ k => exact .step (b (k + 1)) (ih (by omega)) (hc.next (k + 1) (by omega) (by omega))

end FEL
end Teufel
