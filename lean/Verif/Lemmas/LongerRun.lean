import Verif.Spec.LongerRun
import Verif.Lemmas.Moved

/-! # Lemmas on runs of different length -/

namespace Teufel
open Vec

/-! ## The input -/

theorem find_other {p : Xml → Bool} {l l' : List Xml}
    (h : List.Forall₂ (fun c c' : Xml => c' = c ∨ (c.name = "tracking" ∧ c'.name = "tracking" ∧ c'.children = c.children ∧ ∀ a, a ≠ "n" → c'.attr a = c.attr a)) l l')
    (hp : ∀ c c' : Xml, c.name = c'.name → p c = p c') :
    (l.find? p = none ∧ l'.find? p = none) ∨ ∃ c c', l.find? p = some c ∧ l'.find? p = some c' ∧
      (c' = c ∨ (c.name = "tracking" ∧ c'.name = "tracking" ∧ c'.children = c.children ∧ ∀ a, a ≠ "n" → c'.attr a = c.attr a)) := by
  induction h with
  | nil => left; simp
  | cons hc _ ih =>
    rename_i c c' l l' _
    have hn : c.name = c'.name := by
      rcases hc with h | h
      · rw [h]
      · rw [h.1, h.2.1]
    rw [List.find?_cons, List.find?_cons, ← hp _ _ hn]
    cases hv : p c with
    | true => right; exact ⟨c, c', rfl, rfl, hc⟩
    | false => exact ih

theorem child_other {root root' : Xml}
    (h : List.Forall₂ (fun c c' : Xml => c' = c ∨ (c.name = "tracking" ∧ c'.name = "tracking" ∧ c'.children = c.children ∧ ∀ a, a ≠ "n" → c'.attr a = c.attr a)) root.children root'.children)
    (n : String) (hn : n ≠ "tracking") : root'.child n = root.child n := by
  unfold Xml.child
  rcases find_other (p := fun c => c.name == n) h (fun c c' hc => by simp [hc]) with ⟨h1, h2⟩ | ⟨c, c', h1, h2, h3⟩
  · rw [h1, h2]
  · rw [h1, h2]
    rcases h3 with h3 | h3
    · rw [h3]
    · have := List.find?_some h1
      simp only [beq_iff_eq] at this
      rw [h3.1] at this
      exact absurd this.symm hn

/-- the number of steps has no influence on what else is read -/
theorem parse_other (L : Lib) {doc doc' : Xml} (h : OtherSteps doc doc') {p p' : Lib.Parsed} (hp : L.parse doc = .ok p) (hp' : L.parse doc' = .ok p') :
    p' = { p with tracking := { p.tracking with NOTS := p'.tracking.NOTS } } := by
  obtain ⟨root, root', h1, h2, h3⟩ := h
  unfold Lib.parse at hp hp'
  rw [h1] at hp
  rw [h2] at hp'
  have hstart : L.start root' = L.start root := by
    unfold Lib.start Lib.parseCalcChildren
    generalize Lib.predefined = e
    clear hp hp' h1 h2
    generalize root.children = l at h3 ⊢
    generalize root'.children = l' at h3 ⊢
    induction h3 generalizing e with
    | nil => rfl
    | cons hc _ ih =>
      rw [List.foldl_cons, List.foldl_cons]
      rcases hc with rfl | hc
      · exact ih _
      · rw [hc.1, hc.2.1]
        exact ih _
  have hlat : ∀ e l, L.parseLattice root' e l = L.parseLattice root e l := by intro e l; unfold Lib.parseLattice; rw [child_other h3 "lattice" (by decide)]
  have hbeam : ∀ e, L.parseBeam root' e = L.parseBeam root e := by intro e; unfold Lib.parseBeam; rw [child_other h3 "beam" (by decide)]
  have hobs : ∀ e, L.parseObservers root' e = L.parseObservers root e := by intro e; unfold Lib.parseObservers; rw [child_other h3 "observer" (by decide)]
  simp only [need, bind, Except.bind, pure, Except.pure, hstart, hlat] at hp hp'
  cases ha : L.parseLattice root (L.start root) [] with
  | error e => rw [ha] at hp; cases hp
  | ok lat =>
  rw [ha] at hp hp'
  simp only [hbeam] at hp hp'
  cases hb : L.parseBeam root lat.env with
  | error e => rw [hb] at hp; cases hp
  | ok be =>
  rw [hb] at hp hp'
  simp only at hp hp'
  cases ht : L.parseTracking root be.env with
  | error e => rw [ht] at hp; cases hp
  | ok tr =>
  cases ht' : L.parseTracking root' be.env with
  | error e => rw [ht'] at hp'; cases hp'
  | ok tr' =>
  rw [ht] at hp
  rw [ht'] at hp'
  simp only [hobs] at hp hp'
  have htr : tr' = { tr with NOTS := tr'.NOTS } := by
    unfold Lib.parseTracking Xml.child at ht ht'
    rcases find_other (p := fun c => c.name == "tracking") h3 (fun c c' hc => by simp [hc]) with ⟨g1, g2⟩ | ⟨c, c', g1, g2, g3⟩
    · rw [g1] at ht; cases ht
    rw [g1] at ht
    rw [g2] at ht'
    rcases g3 with rfl | ⟨-, -, g3, g4⟩
    · rw [ht] at ht'
      injection ht' with ht'
      rw [← ht']
    · have hnum : ∀ e, L.num e c' "delta_t" = L.num e c "delta_t" := by intro e; unfold Lib.num Xml.value; rw [g4 _ (by decide)]
      have hstep : L.trackStep c' = L.trackStep c := by
        funext s x
        unfold Lib.trackStep Lib.felEntry
        simp only [hnum]
      simp only [need, bind, Except.bind, pure, Except.pure, hnum, hstep, g3] at ht ht'
      split at ht
      · cases ht
      split at ht'
      · cases ht'
      split at ht
      · cases ht
      split at ht'
      · cases ht'
      split at ht
      · cases ht
      split at ht'
      · cases ht'
      split at ht
      · cases ht
      split at ht'
      · cases ht'
      split at ht
      · cases ht
      · next hs =>
        rw [hs] at ht'
        simp only [Except.ok.injEq] at ht ht'
        rw [← ht, ← ht']
  rw [htr] at hp'
  simp only at hp'
  cases ho : L.parseObservers root tr.state.env with
  | error e => rw [ho] at hp; cases hp
  | ok ob =>
  rw [ho] at hp hp'
  simp only [Except.ok.injEq] at hp hp'
  rw [← hp, ← hp']

/-! ## The trajectories -/

/-- the trajectory of `a` is the beginning of that of `b` -/
def Begins (a b : Particle) : Prop := a.Time <+: b.Time ∧ a.X <+: b.X ∧ a.P <+: b.P ∧ a.A <+: b.A ∧ b.Charge = a.Charge

theorem after_begins {ext : Lattice} {dt : ℝ} {ps qs qs' : List Particle} {s S S' : List FEL} {k l : Nat} (h : Coupled.after ext dt ps s k = .ok (qs, S))
    (h' : Coupled.after ext dt ps s (k + l) = .ok (qs', S')) : List.Forall₂ Begins qs qs' := by
  induction l generalizing qs' S' with
  | zero =>
    rw [Nat.add_zero, h] at h'
    cases h'
    exact List.forall₂_same.mpr (fun a _ => ⟨List.prefix_rfl, List.prefix_rfl, List.prefix_rfl, List.prefix_rfl, rfl⟩)
  | succ l ih =>
    have h'' : Coupled.after ext dt ps s (k + l + 1) = .ok (qs', S') := h'
    unfold Coupled.after at h''
    cases hb : Coupled.after ext dt ps s (k + l) with
    | error e => rw [hb] at h''; cases h''
    | ok r =>
      obtain ⟨a, c⟩ := r
      rw [hb] at h''
      simp only [bind, Except.bind, pure, Except.pure] at h''
      have ih := ih hb
      cases hq : a.mapM (fun p => dropState (p.StepVay (Coupled.field ext c))) with
      | error e => rw [hq] at h''; cases h''
      | ok a' =>
        rw [hq] at h''
        simp only at h''
        cases hi : c.mapM (FEL.step ⟨1, [⟨a'.length, a'⟩], ((k + l : Nat) : Int) + 1, dt, .vay⟩) with
        | error e => rw [hi] at h''; cases h''
        | ok b =>
          rw [hi] at h''
          simp only [Except.ok.injEq, Prod.mk.injEq] at h''
          obtain ⟨rfl, rfl⟩ := h''
          have hf := forall₂_mapM hq
          clear * - hf ih
          induction ih generalizing a' with
          | nil => cases hf; exact .nil
          | cons hx _ ih2 =>
            cases hf with
            | cons hy hf =>
              refine .cons ?_ (ih2 _ hf)
              have hy := dropState_ok hy
              obtain ⟨g1, g2, g3, g4⟩ := Particle.step_prefix hy
              exact ⟨hx.1.trans g1, hx.2.1.trans g2, hx.2.2.1.trans g3, hx.2.2.2.1.trans g4, (Particle.step_const hy).2.2.2.1.trans hx.2.2.2.2⟩

/-- a run gets as far as any longer one -/
theorem after_reached {ext : Lattice} {dt : ℝ} {ps qs : List Particle} {s S : List FEL} {k l : Nat} (h : Coupled.after ext dt ps s (k + l) = .ok (qs, S)) :
    ∃ r, Coupled.after ext dt ps s k = .ok r := by
  induction l generalizing qs S with
  | zero => exact ⟨_, h⟩
  | succ l ih =>
    have h'' : Coupled.after ext dt ps s (k + l + 1) = .ok (qs, S) := h
    unfold Coupled.after at h''
    cases hb : Coupled.after ext dt ps s (k + l) with
    | error e => rw [hb] at h''; cases h''
    | ok r => exact ih (qs := r.1) (S := r.2) hb

/-! ## The recorded field -/

theorem signal_begins {a b : Particle} (ha : a.Reachable) (hb : b.Reachable) (h : Begins a b) (k : Nat) (hk : k < a.getNP) (obs : Vec) :
    b.RetardedTime k obs = a.RetardedTime k obs ∧ b.RetardedFieldIdx k obs = a.RetardedFieldIdx k obs ∧ b.TrajPoint k = a.TrajPoint k ∧ b.TrajTime k = a.TrajTime k := by
  have ca := cons_reachable ha
  have cb := cons_reachable hb
  have ⟨c1, c2, c3, c4⟩ := ca
  obtain ⟨h1, h2, h3, h4, h5⟩ := h
  simp only [Particle.getNP] at hk
  have g1 := List.getElem?_eq_getElem (show k < a.Time.length by omega)
  have g2 := List.getElem?_eq_getElem (show k < a.X.length by omega)
  have g3 := List.getElem?_eq_getElem (show k < a.P.length by omega)
  have g4 := List.getElem?_eq_getElem (show k < a.A.length by omega)
  have a1 := TrajTime_of_get ca g1
  have a2 := TrajPoint_of_get ca g2
  have a3 := TrajMomentum_of_get ca g3
  have a4 := TrajAccel_of_get ca g4
  have b1 := TrajTime_of_get cb (Particle.prefix_get h1 g1)
  have b2 := TrajPoint_of_get cb (Particle.prefix_get h2 g2)
  have b3 := TrajMomentum_of_get cb (Particle.prefix_get h3 g3)
  have b4 := TrajAccel_of_get cb (Particle.prefix_get h4 g4)
  refine ⟨?_, ?_, b2.trans a2.symm, b1.trans a1.symm⟩
  · simp only [Particle.RetardedTime, a1, a2, b1, b2]
  · simp only [Particle.RetardedFieldIdx, a2, a3, a4, b2, b3, b4, h5]

/-- what is recorded until the last signal of the shorter trajectory does not depend on what follows -/
theorem trace_begins {a b : Particle} (ha : a.Reachable) (hb : b.Reachable) (sa : a.Subluminal) (sb : b.Subluminal) (h : Begins a b) {obs : Vec}
    (hoff : b.OffTrajectory obs) {n m : Nat} (ea : a.getNP = n + 1) (eb : b.getNP = m + 1) (hnm : n ≤ m) {rl : ℝ} (hrl : a.RetardedTime n obs = .ok rl)
    {t0 dt : ℝ} {N i : Nat} (hdt : 0 < dt) (hin : t0 + i * dt + dt / 2 ≤ rl) {tr tr' : FieldTrace}
    (hr : a.integrateFieldTrace obs (FieldTrace.new t0 dt N) = .ok tr) (hr' : b.integrateFieldTrace obs (FieldTrace.new t0 dt N) = .ok tr') {f f' : EMField}
    (hf : tr.getField i = .ok f) (hf' : tr'.getField i = .ok f') : f' = f := by
  have hw : (FieldTrace.new t0 dt N).WF := by simp [FieldTrace.WF, FieldTrace.new]
  rcases Nat.lt_or_ge N 2 with hN | hN
  · rw [C15_nothing_to_record a obs _ (Or.inl hN)] at hr
    rw [C15_nothing_to_record b obs _ (Or.inl hN)] at hr'
    cases hr
    cases hr'
    rw [hf] at hf'
    injection hf' with hf'
    exact hf'.symm
  have hoffa : a.OffTrajectory obs := by
    intro k x hx
    rcases Nat.lt_or_ge k a.getNP with hk | hk
    · refine hoff k x ?_
      rw [(signal_begins ha hb h k hk obs).2.2.1, hx]
    · exfalso
      have := get_of_TrajPoint hx
      have c := (cons_reachable ha).2.1
      have := (List.getElem?_eq_some_iff.mp this).1
      simp only [Particle.getNP] at hk
      omega
  have sig := fun k hk => b.signal_exists hb obs hoff k hk
  have ⟨R, hR⟩ : ∃ R : Nat → ℝ, ∀ k, k < b.getNP → b.RetardedTime k obs = .ok (R k) :=
    ⟨fun k => if h : k < b.NP then Classical.choose (sig k h).1 else 0, fun k hk => by simp only [Particle.getNP] at hk; simp only [dif_pos hk]; exact Classical.choose_spec (sig k hk).1⟩
  have ⟨F, hF⟩ : ∃ F : Nat → EMField, ∀ k, k < b.getNP → b.RetardedFieldIdx k obs = .ok (F k) :=
    ⟨fun k => if h : k < b.NP then Classical.choose (sig k h).2 else 0, fun k hk => by simp only [Particle.getNP] at hk; simp only [dif_pos hk]; exact Classical.choose_spec (sig k hk).2⟩
  have hRa : ∀ k, k < a.getNP → a.RetardedTime k obs = .ok (R k) := fun k hk => by rw [← (signal_begins ha hb h k hk obs).1]; exact hR k (by omega)
  have hFa : ∀ k, k < a.getNP → a.RetardedFieldIdx k obs = .ok (F k) := fun k hk => by rw [← (signal_begins ha hb h k hk obs).2.1]; exact hF k (by omega)
  have hn : R n = rl := by
    have := hRa n (by omega)
    rw [hrl] at this
    injection this with this
    exact this.symm
  have hmono : ∀ k, n ≤ k → k < b.getNP → rl ≤ R k := by
    intro k hk hkb
    rcases Nat.lt_or_ge n k with hlt | hge
    · rw [← hn]
      exact (C13_arrival_order b hb sb obs n k hlt _ _ (hR n (by omega)) (hR k hkb)).le
    · rw [show k = n by omega, hn]
  have hiN : ∀ {q : FieldTrace} {g : EMField}, q.getField i = .ok g → i < q.N := by
    intro q g hg
    by_contra hc
    simp only [FieldTrace.getField] at hg
    rw [if_pos (by omega)] at hg
    cases hg
  have hfr : (FieldTrace.new t0 dt N).getField i = .ok 0 := by
    obtain ⟨tr2, g1, -, -, g2, -⟩ := C14_no_index_error a ha sa obs hoffa (FieldTrace.new t0 dt N) hw hdt
    have := hiN hf
    rw [hr] at g1
    cases g1
    rw [g2] at this
    have hi : i < N := this
    have hge : (FieldTrace.new t0 dt N).trace[i]? = some 0 := by simp [FieldTrace.new, hi]
    unfold FieldTrace.getField
    rw [if_neg (Nat.not_le.mpr this), hge]
  have comp : ∀ φ : EMField → ℝ, Particle.IsComponent φ → φ f' = φ f := by
    intro φ hφ
    have i1 := C15_sample_integral a ha sa obs hoffa R F hRa hFa _ tr hw hdt hN hr φ hφ i _ f hfr hf
    have i2 := C15_sample_integral b hb sb obs hoff R F hR hF _ tr' hw hdt hN hr' φ hφ i _ f' hfr hf'
    have hsum : ∀ l, n + l + 1 ≤ b.getNP → ((List.range (n + l)).map fun k => Particle.seenIntegral φ (R k) (R (k + 1)) (F k) (F (k + 1))
        ((FieldTrace.new t0 dt N).t0 + ((i : ℝ) - 1 / 2) * (FieldTrace.new t0 dt N).dt) ((FieldTrace.new t0 dt N).t0 + ((i : ℝ) + 1 / 2) * (FieldTrace.new t0 dt N).dt)).sum =
        ((List.range n).map fun k => Particle.seenIntegral φ (R k) (R (k + 1)) (F k) (F (k + 1))
        ((FieldTrace.new t0 dt N).t0 + ((i : ℝ) - 1 / 2) * (FieldTrace.new t0 dt N).dt) ((FieldTrace.new t0 dt N).t0 + ((i : ℝ) + 1 / 2) * (FieldTrace.new t0 dt N).dt)).sum := by
      intro l
      induction l with
      | zero => intro _; rfl
      | succ l ih =>
        intro hl
        rw [← Nat.add_assoc, List.range_succ, List.map_append, List.sum_append, ih (by omega)]
        have hz : Particle.seenIntegral φ (R (n + l)) (R (n + l + 1)) (F (n + l)) (F (n + l + 1))
            ((FieldTrace.new t0 dt N).t0 + ((i : ℝ) - 1 / 2) * (FieldTrace.new t0 dt N).dt) ((FieldTrace.new t0 dt N).t0 + ((i : ℝ) + 1 / 2) * (FieldTrace.new t0 dt N).dt) = 0 := by
          rw [Particle.seenIntegral, Particle.bucket_integral]
          apply Particle.bucketVal_zero
          refine le_trans (min_le_right _ _) (le_trans ?_ (le_max_left _ _))
          refine le_trans ?_ (hmono (n + l) (by omega) (by omega))
          refine le_trans (le_of_eq ?_) hin
          show t0 + ((i : ℝ) + 1 / 2) * dt = t0 + i * dt + dt / 2
          ring
        simp only [List.map_cons, List.map_nil, List.sum_cons, List.sum_nil, hz, add_zero]
    have e1 : a.getNP - 1 = n := by omega
    have e2 : b.getNP - 1 = n + (m - n) := by omega
    rw [e1] at i1
    rw [e2, hsum (m - n) (by omega), ← i1] at i2
    exact mul_right_cancel₀ (ne_of_gt hdt) i2
  have c1 := comp _ component_Ex
  have c2 := comp _ component_Ey
  have c3 := comp _ component_Ez
  have c4 := comp _ component_Bx
  have c5 := comp _ component_By
  have c6 := comp _ component_Bz
  have e1 : f'.E = f.E := by ext <;> assumption
  have e2 : f'.B = f.B := by ext <;> assumption
  cases f; cases f'; simp only at e1 e2; rw [e1, e2]

/-- the same for every kind of observer recording traces -/
theorem sample_begins {a b : Particle} (ha : a.Reachable) (hb : b.Reachable) (sa : a.Subluminal) (sb : b.Subluminal) (h : Begins a b) {o : Observer} {k : Observer.Key} {t δ : ℝ} {X : Vec}
    (hk : o.samplePoint k = .ok (t, X)) (hd : o.sampleStep k = some δ) (hδ : 0 < δ)
    (hoff : b.OffTrajectory X) {n m : Nat} (ea : a.getNP = n + 1) (eb : b.getNP = m + 1) (hnm : n ≤ m) {rl : ℝ} (hrl : a.RetardedTime n X = .ok rl)
    (hin : t + δ / 2 ≤ rl) {f f' : EMField} (hf : o.particleSample k a = .ok f) (hf' : o.particleSample k b = .ok f') : f' = f := by
  have split : ∀ {p : Particle} {P : Vec} {tr0 : FieldTrace} {g : EMField}, (p.integrateFieldTrace P tr0 >>= fun tr => tr.getField k.2) = .ok g →
      ∃ tr, p.integrateFieldTrace P tr0 = .ok tr ∧ tr.getField k.2 = .ok g := by
    intro p P tr0 g hg
    cases hq : p.integrateFieldTrace P tr0 with
    | error e => rw [hq] at hg; cases hg
    | ok tr => rw [hq] at hg; exact ⟨tr, rfl, hg⟩
  cases o with
  | screen s =>
    simp only [Observer.samplePoint, Except.ok.injEq, Prod.mk.injEq] at hk
    obtain ⟨rfl, rfl⟩ := hk
    simp only [Observer.sampleStep, Option.some.injEq] at hd
    subst hd
    obtain ⟨tr, h1, h2⟩ := split hf
    obtain ⟨tr', h3, h4⟩ := split hf'
    exact trace_begins ha hb sa sb h hoff ea eb hnm hrl hδ hin h1 h3 h2 h4
  | snapshot s => cases hd
  | point s =>
    simp only [Observer.samplePoint, Except.ok.injEq, Prod.mk.injEq] at hk
    obtain ⟨rfl, rfl⟩ := hk
    simp only [Observer.sampleStep, Option.some.injEq] at hd
    subst hd
    obtain ⟨tr, h1, h2⟩ := split hf
    obtain ⟨tr', h3, h4⟩ := split hf'
    exact trace_begins ha hb sa sb h hoff ea eb hnm hrl hδ hin h1 h3 h2 h4
  | mesh s =>
    simp only [Observer.samplePoint, bind, Except.bind, pure, Except.pure] at hk
    simp only [Observer.particleSample] at hf hf'
    cases hp : MeshObs.at' s.points k.1.1 with
    | error e => rw [hp] at hk; cases hk
    | ok pos =>
    cases hA : MeshObs.at' s.A k.1.1 with
    | error e => rw [hp, hA] at hk; cases hk
    | ok tr0 =>
    rw [hp, hA] at hk hf hf'
    simp only [Except.ok.injEq, Prod.mk.injEq] at hk
    obtain ⟨rfl, rfl⟩ := hk
    have hA' : s.A[k.1.1]? = some tr0 := by
      unfold MeshObs.at' at hA
      cases hq : s.A[k.1.1]? with
      | none => rw [hq] at hA; cases hA
      | some q => rw [hq] at hA; injection hA with hA; rw [hA]
    simp only [Observer.sampleStep, hA', Option.map_some, Option.some.injEq] at hd
    subst hd
    obtain ⟨tr, h1, h2⟩ := split hf
    obtain ⟨tr', h3, h4⟩ := split hf'
    exact trace_begins ha hb sa sb h hoff ea eb hnm hrl hδ hin h1 h3 h2 h4

/-- a field observed before the last signal of the shorter trajectory arrives does not depend on what follows -/
theorem field_begins {a b : Particle} (ha : a.Reachable) (hb : b.Reachable) (sb : b.Subluminal) (h : Begins a b) {obs : Vec}
    {n m : Nat} (ea : a.getNP = n + 1) (eb : b.getNP = m + 1) (hnm : n ≤ m) {rl t : ℝ} (hrl : a.RetardedTime n obs = .ok rl) (ht : t ≤ rl) :
    b.RetardedFieldAt t obs = a.RetardedFieldAt t obs := by
  have ca := cons_reachable ha
  have cb := cons_reachable hb
  have ⟨a1, a2, a3, a4⟩ := ca
  have ⟨b1, b2, b3, b4⟩ := cb
  obtain ⟨h1, h2, h3, h4, h5⟩ := h
  simp only [Particle.getNP] at ea eb
  have gT : ∀ k, k < b.NP → b.Time[k]? = some ((b.Time[k]?).getD 0) := by
    intro k hk; rw [List.getElem?_eq_getElem (by omega)]; rfl
  have gX : ∀ k, k < b.NP → b.X[k]? = some ((b.X[k]?).getD 0) := by
    intro k hk; rw [List.getElem?_eq_getElem (by omega)]; rfl
  have eqT : ∀ k, k < a.NP → a.Time[k]? = b.Time[k]? := fun k hk => by
    rw [List.getElem?_eq_getElem (show k < a.Time.length by omega)]; exact (Particle.prefix_get h1 (List.getElem?_eq_getElem _)).symm
  have eqX : ∀ k, k < a.NP → a.X[k]? = b.X[k]? := fun k hk => by
    rw [List.getElem?_eq_getElem (show k < a.X.length by omega)]; exact (Particle.prefix_get h2 (List.getElem?_eq_getElem _)).symm
  have eqP : ∀ k, k < a.NP → a.P[k]? = b.P[k]? := fun k hk => by
    rw [List.getElem?_eq_getElem (show k < a.P.length by omega)]; exact (Particle.prefix_get h3 (List.getElem?_eq_getElem _)).symm
  have eqA : ∀ k, k < a.NP → a.A[k]? = b.A[k]? := fun k hk => by
    rw [List.getElem?_eq_getElem (show k < a.A.length by omega)]; exact (Particle.prefix_get h4 (List.getElem?_eq_getElem _)).symm
  set T : Nat → ℝ := fun k => (b.Time[k]?).getD 0 with hT
  set X : Nat → Vec := fun k => (b.X[k]?).getD 0 with hX
  set R : Nat → ℝ := fun k => T k + Vec.norm (obs - X k) / SpeedOfLight with hR
  have hRb : ∀ k, k < b.NP → b.RetardedTime k obs = .ok (R k) := fun k hk =>
    RetardedTime_of (TrajTime_of_get cb (gT k hk)) (TrajPoint_of_get cb (gX k hk))
  have hRa : a.RetardedTime n obs = .ok (R n) :=
    RetardedTime_of (TrajTime_of_get ca ((eqT n (by omega)).trans (gT n (by omega)))) (TrajPoint_of_get ca ((eqX n (by omega)).trans (gX n (by omega))))
  rw [hRa] at hrl
  injection hrl with hrl
  subst hrl
  have hmono : ∀ i j, i ≤ j → j < b.NP → R i ≤ R j := by
    intro i j hij hj
    rcases Nat.lt_or_ge i j with hlt | hge
    · exact (C13_arrival_order b hb sb obs i j hlt _ _ (hRb i (by omega)) (hRb j hj)).le
    · rw [show i = j by omega]
  have va : ∀ k, k < a.NP → Particle.vecAt a.X k = .ok (X k) ∧ Particle.vecAt a.Time k = .ok (T k) := fun k hk =>
    ⟨Particle.vecAt_of_get ((eqX k hk).trans (gX k (by omega))), Particle.vecAt_of_get ((eqT k hk).trans (gT k (by omega)))⟩
  have vb : ∀ k, k < b.NP → Particle.vecAt b.X k = .ok (X k) ∧ Particle.vecAt b.Time k = .ok (T k) := fun k hk =>
    ⟨Particle.vecAt_of_get (gX k hk), Particle.vecAt_of_get (gT k hk)⟩
  have hint : ∀ i, i + 1 < a.NP → Particle.interpolate b i (i + 1) t obs = Particle.interpolate a i (i + 1) t obs := by
    intro i hi
    unfold Particle.interpolate Particle.vecAt
    rw [eqT i (by omega), eqT (i + 1) hi, eqX i (by omega), eqX (i + 1) hi, eqP i (by omega), eqP (i + 1) hi, eqA i (by omega), eqA (i + 1) hi]
  have hvP : Particle.vecAt b.P 0 = Particle.vecAt a.P 0 := by unfold Particle.vecAt; rw [eqP 0 (by omega)]
  simp only [Particle.RetardedFieldAt]
  rw [if_neg (by omega), if_neg (by omega), (va 0 (by omega)).1, (va 0 (by omega)).2, (vb 0 (by omega)).1, (vb 0 (by omega)).2, hvP,
    (va (a.NP - 1) (by omega)).1, (va (a.NP - 1) (by omega)).2, (vb (b.NP - 1) (by omega)).1, (vb (b.NP - 1) (by omega)).2]
  simp only [bind, Except.bind, h5]
  have q1 : t - (T (a.NP - 1) + Vec.norm (obs - X (a.NP - 1)) / SpeedOfLight) ≤ 0 := by
    have : R (a.NP - 1) = T (a.NP - 1) + Vec.norm (obs - X (a.NP - 1)) / SpeedOfLight := rfl
    rw [← this, show a.NP - 1 = n by omega]; linarith
  have q2 : t - (T (b.NP - 1) + Vec.norm (obs - X (b.NP - 1)) / SpeedOfLight) ≤ 0 := by
    have : R (b.NP - 1) = T (b.NP - 1) + Vec.norm (obs - X (b.NP - 1)) / SpeedOfLight := rfl
    rw [← this]
    have := hmono n (b.NP - 1) (by omega) (by omega)
    linarith
  cases hP0 : Particle.vecAt a.P 0 with
  | error e => rfl
  | ok P0 =>
  simp only
  rw [if_pos q1, if_pos q2]
  by_cases k0 : t - (T 0 + Vec.norm (obs - X 0) / SpeedOfLight) ≤ 0
  · rw [if_pos k0, if_pos k0]
  rw [if_neg k0, if_neg k0]
  have k0' : R 0 < t := by
    have : R 0 = T 0 + Vec.norm (obs - X 0) / SpeedOfLight := rfl
    rw [← this] at k0; linarith
  have hn : n ≠ 0 := by
    rintro rfl
    linarith
  obtain ⟨i, hi, i1, i2, i3, i4⟩ := Particle.bisect_spec
    (fun i => do
      let x ← Particle.vecAt a.X i
      let tt ← Particle.vecAt a.Time i
      return decide (t - (tt + Vec.norm (obs - x) / SpeedOfLight) > 0)) (fun k => decide (t - R k > 0)) 0 (a.NP - 1) (by omega)
    (by intro k _ hk
        rw [(va k (by omega)).1, (va k (by omega)).2]; rfl)
  obtain ⟨j, hj, j1, j2, j3, j4⟩ := Particle.bisect_spec
    (fun i => do
      let x ← Particle.vecAt b.X i
      let tt ← Particle.vecAt b.Time i
      return decide (t - (tt + Vec.norm (obs - x) / SpeedOfLight) > 0)) (fun k => decide (t - R k > 0)) 0 (b.NP - 1) (by omega)
    (by intro k _ hk
        rw [(vb k (by omega)).1, (vb k (by omega)).2]; rfl)
  have u1 : R i < t := by
    rcases i3 with h | h
    · rw [h]; exact k0'
    · have := of_decide_eq_true h; linarith
  have u2 : t ≤ R (i + 1) := by
    rcases i4 with h | h
    · rw [h, show a.NP - 1 = n by omega]; exact ht
    · have := of_decide_eq_false h; linarith
  have w1 : R j < t := by
    rcases j3 with h | h
    · rw [h]; exact k0'
    · have := of_decide_eq_true h; linarith
  have w2 : t ≤ R (j + 1) := by
    rcases j4 with h | h
    · rw [h]; exact ht.trans (hmono _ _ (by omega) (by omega))
    · have := of_decide_eq_false h; linarith
  have hij : j = i := by
    rcases Nat.lt_trichotomy i j with hlt | he | hgt
    · have := hmono (i + 1) j (by omega) (by omega); linarith
    · exact he.symm
    · have := hmono (j + 1) i (by omega) (by omega); linarith
  subst hij
  simp only [bind, Except.bind] at hi hj
  rw [hi, hj]
  simp only [hint j (by omega)]

end Teufel
