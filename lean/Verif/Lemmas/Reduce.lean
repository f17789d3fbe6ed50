import Verif.Lemmas.ObserveSum

/-! # The reduction over all nodes -/

namespace Teufel
open Vec FieldTrace

theorem zip_comps {α} (l : List α) (g h : α → EMField) :
    List.zipWith (fun x y : ℝ => x + y) ((l.map g).flatMap EMField.comps) ((l.map h).flatMap EMField.comps) = (l.map (fun k => g k + h k)).flatMap EMField.comps := by
  induction l with
  | nil => rfl
  | cons a l ih =>
    simp only [List.map_cons, List.flatMap_cons, EMField.comps, List.cons_append, List.nil_append, List.zipWith_cons_cons]
    rw [← ih]
    rfl

theorem reduce_comps {α} (l : List α) (g : α → EMField) (gs : List (α → EMField)) :
    reduceSum ((g :: gs).map (fun g => (l.map g).flatMap EMField.comps)) = (l.map (fun k => ((g :: gs).map (fun g => g k)).sum)).flatMap EMField.comps := by
  simp only [reduceSum, List.map_cons]
  induction gs generalizing g with
  | nil => simp
  | cons g' gs ih =>
    rw [List.map_cons, List.foldl_cons, zip_comps, ih (fun k => g k + g' k)]
    congr 2
    funext k
    simp [add_assoc]

namespace Observer

theorem node_ok {o : Observer} (h : o.WF) (hz : o.blank = o) {src : RadSource} (hs : src.Counted) {r : Observer × Nat × List ℝ} (hr : nodeObserve o src = .ok r) :
    ∃ q : Nat × Nat → Nat → EMField, (∀ c ∈ o.cellsOf, o.share src c = .ok (q c)) ∧ r.1.WF ∧ r.1.blank = o ∧ r.2.1 < 2 ^ 31 ∧
      ((6 * o.keys.length < 2 ^ 31 ∧ r.2.1 = 6 * o.keys.length ∧ r.2.2 = (o.keys.map (fun k => q k.1 k.2)).flatMap EMField.comps) ∨
       (2 ^ 31 ≤ 6 * o.keys.length ∧ ∀ buf, ∃ e, r.1.fromBuffer buf r.2.1 = .error e)) := by
  unfold nodeObserve at hr
  cases hi : o.integrate src with
  | error e => rw [hi] at hr; cases hr
  | ok o1 =>
    obtain ⟨hA, _⟩ := integrate_spec h hz hs
    obtain ⟨w1, b1, c1⟩ := hA o1 hi
    have hk : o1.keys = o.keys := by rw [← keys_blank o1, b1]
    rw [hi] at hr
    simp only [bind, Except.bind] at hr
    cases hsz : o1.getBufferSize with
    | error e => rw [hsz] at hr; cases hr
    | ok size =>
      rw [hsz] at hr
      simp only at hr
      cases hb : o1.getBuffer with
      | error e => rw [hb] at hr; cases hr
      | ok buf =>
        rw [hb] at hr
        simp only at hr
        have hf : o1.Fits := by
          by_contra hf
          rw [getBuffer_overflow w1 hf] at hb
          cases hb
        classical
        set q : Nat × Nat → Nat → EMField := fun c => match o.share src c with | .ok g => g | .error _ => 0 with hq
        have hqc : ∀ c ∈ o.cellsOf, o.share src c = .ok (q c) := by
          intro c hc
          obtain ⟨g, hg, _⟩ := c1 c hc
          simp only [hq, hg]
        have hqk : ∀ k ∈ o1.keys, o1.get k = .ok (q k.1 k.2) := by
          intro k hk'
          rw [hk] at hk'
          obtain ⟨g, hg, hgk⟩ := c1 k.1 (key_cell hk')
          rw [hgk k hk' rfl]
          have := hqc k.1 (key_cell hk')
          rw [hg] at this
          injection this with this
          rw [this]
        obtain ⟨s1, s2⟩ := getBuffer_fits w1 hf (fun k => q k.1 k.2) hqk
        rw [hk] at s1 s2
        rw [hsz] at s1
        injection s1 with s1
        rw [hb] at s2
        injection s2 with s2
        by_cases hbig : size % 2 ^ 32 ≥ 2 ^ 31
        · rw [if_pos hbig] at hr; cases hr
        · rw [if_neg hbig] at hr
          simp only [pure, Except.pure] at hr
          by_cases hlen : buf.length < size % 2 ^ 32
          · rw [if_pos hlen] at hr; cases hr
          · rw [if_neg hlen] at hr
            simp only [Except.ok.injEq] at hr
            subst hr
            refine ⟨q, hqc, w1, b1, not_le.mp hbig, ?_⟩
            by_cases h31 : 6 * o.keys.length < 2 ^ 31
            · left
              have hm : size % 2 ^ 32 = 6 * o.keys.length := by rw [s1]; exact Nat.mod_eq_of_lt (by omega)
              refine ⟨h31, hm, ?_⟩
              simp only
              rw [hm, s2, List.take_of_length_le]
              rw [comps_length, List.length_map]
            · right
              refine ⟨by omega, ?_⟩
              have h32 : 2 ^ 32 ≤ 6 * o.keys.length := by
                by_contra hc
                apply hbig
                rw [s1, Nat.mod_eq_of_lt (by omega)]
                omega
              intro buf'
              simp only
              cases o1 with
              | screen s =>
                exfalso
                have hf : 6 * (s.Nx * s.Ny * s.NOTS) < 2 ^ 32 := hf
                rw [← hk] at h32
                have : (Observer.screen s).keys.length = s.Nx * s.Ny * s.NOTS := samples_length s
                omega
              | snapshot s =>
                exfalso
                have hf : 6 * (s.Nx * s.Ny) < 2 ^ 32 := hf
                rw [← hk] at h32
                have : (Observer.snapshot s).keys.length = s.Nx * s.Ny := by simp [keys, cells_length]
                omega
              | mesh s =>
                exfalso
                have hf : 6 * (s.Np * s.Nt) < 2 ^ 31 := hf
                rw [← hk, mesh_keys_length] at h32
                omega
              | point s =>
                refine ⟨.io, ?_⟩
                show (s.fromBuffer buf' (size % 2 ^ 32)).map Observer.point = _
                unfold PointObs.fromBuffer
                have : (Observer.point s).keys.length = s.trace.N := by simp [keys]
                rw [hk] at this
                rw [if_neg (show ¬ size % 2 ^ 32 = 6 * s.trace.N by omega)]
                rfl

theorem small_fits {o : Observer} (h : 6 * o.keys.length < 2 ^ 31) : o.Fits := by
  cases o with
  | screen s => show 6 * (s.Nx * s.Ny * s.NOTS) < 2 ^ 32; have : (Observer.screen s).keys.length = s.Nx * s.Ny * s.NOTS := samples_length s; omega
  | snapshot s => show 6 * (s.Nx * s.Ny) < 2 ^ 32; have : (Observer.snapshot s).keys.length = s.Nx * s.Ny := by simp [keys, cells_length]
                  omega
  | point s => exact trivial
  | mesh s => show 6 * (s.Np * s.Nt) < 2 ^ 31; rw [mesh_keys_length] at h; exact h

theorem node_progress {o : Observer} (h : o.WF) (hz : o.blank = o) {src : RadSource} (hs : src.Counted) (h31 : 6 * o.keys.length < 2 ^ 31)
    (hc : ∀ c ∈ o.cellsOf, ∃ g, o.share src c = .ok g) : ∃ r, nodeObserve o src = .ok r := by
  obtain ⟨hA, hB⟩ := integrate_spec h hz hs
  obtain ⟨o1, hi⟩ := hB hc
  obtain ⟨w1, b1, c1⟩ := hA o1 hi
  have hk : o1.keys = o.keys := by rw [← keys_blank o1, b1]
  obtain ⟨s1, s2⟩ := getBuffer_fits w1 (small_fits (by rw [hk]; exact h31)) (fun k => match o1.get k with | .ok f => f | .error _ => 0) (by
    intro k hk'
    obtain ⟨f, hf⟩ := get_ok w1 hk'
    rw [hf])
  unfold nodeObserve
  rw [hi]
  simp only [bind, Except.bind, s1, s2, hk]
  have hm : 6 * o.keys.length % 2 ^ 32 = 6 * o.keys.length := Nat.mod_eq_of_lt (by omega)
  rw [hm, if_neg (by omega)]
  simp only [pure, Except.pure]
  rw [if_neg (by rw [comps_length, List.length_map]; omega)]
  exact ⟨_, rfl⟩

theorem sumM_ok_iff {α β} [AddCommMonoid β] (f : α → Except Err β) (l : List α) : (∃ q, sumM f l = .ok q) ↔ ∀ a ∈ l, ∃ x, f a = .ok x := by
  induction l with
  | nil => simp [sumM_nil]
  | cons a l ih =>
    rw [sumM_cons]
    constructor
    · rintro ⟨q, hq⟩
      cases ha : f a with
      | error e => rw [ha] at hq; cases hq
      | ok x =>
        rw [ha] at hq
        simp only [Except.bind] at hq
        cases hl : sumM f l with
        | error e => rw [hl] at hq; cases hq
        | ok y =>
          intro b hb
          rw [List.mem_cons] at hb
          rcases hb with rfl | hb
          · exact ⟨x, ha⟩
          · exact ih.mp ⟨y, hl⟩ b hb
    · intro hall
      obtain ⟨x, hx⟩ := hall a (by simp)
      obtain ⟨y, hy⟩ := ih.mpr (fun b hb => hall b (by simp [hb]))
      exact ⟨x + y, by rw [hx, hy]; rfl⟩

theorem nodes_ok {o : Observer} (h : o.WF) (hz : o.blank = o) (srcs : List RadSource) (hs : ∀ s ∈ srcs, s.Counted) (rs : List (Observer × Nat × List ℝ))
    (hr : srcs.mapM (nodeObserve o) = .ok rs) (h31 : 6 * o.keys.length < 2 ^ 31) :
    ∃ qs : List (Nat × Nat → Nat → EMField), rs.map (fun r => r.2.2) = qs.map (fun q => (o.keys.map (fun k => q k.1 k.2)).flatMap EMField.comps) ∧
      (∀ c ∈ o.cellsOf, srcs.mapM (fun s => o.share s c) = .ok (qs.map (fun q => q c))) := by
  induction srcs generalizing rs with
  | nil =>
    simp only [List.mapM_nil, pure, Except.pure, Except.ok.injEq] at hr
    subst hr
    exact ⟨[], rfl, fun c _ => rfl⟩
  | cons s srcs ih =>
    rw [List.mapM_cons] at hr
    cases h1 : nodeObserve o s with
    | error e => rw [h1] at hr; cases hr
    | ok r =>
      rw [h1] at hr
      simp only [bind, Except.bind] at hr
      cases h2 : srcs.mapM (nodeObserve o) with
      | error e => rw [h2] at hr; cases hr
      | ok rs' =>
        rw [h2] at hr
        simp only [pure, Except.pure, Except.ok.injEq] at hr
        subst hr
        obtain ⟨qs, e1, e2⟩ := ih (fun s hs' => hs s (by simp [hs'])) rs' h2
        obtain ⟨q, f1, _, _, _, f2⟩ := node_ok h hz (hs s (by simp)) h1
        rcases f2 with ⟨_, _, f3⟩ | ⟨f3, _⟩
        · refine ⟨q :: qs, ?_, ?_⟩
          · simp only [List.map_cons, f3, e1]
          · intro c hc
            rw [List.mapM_cons, f1 c hc, e2 c hc]
            rfl
        · omega

theorem nodes_progress {o : Observer} (h : o.WF) (hz : o.blank = o) (srcs : List RadSource) (hs : ∀ s ∈ srcs, s.Counted) (h31 : 6 * o.keys.length < 2 ^ 31)
    (hc : ∀ s ∈ srcs, ∀ c ∈ o.cellsOf, ∃ g, o.share s c = .ok g) : ∃ rs, srcs.mapM (nodeObserve o) = .ok rs := by
  induction srcs with
  | nil => exact ⟨[], rfl⟩
  | cons s srcs ih =>
    obtain ⟨r, hr⟩ := node_progress h hz (hs s (by simp)) h31 (hc s (by simp))
    obtain ⟨rs, hrs⟩ := ih (fun s hs' => hs s (by simp [hs'])) (fun s hs' => hc s (by simp [hs']))
    exact ⟨r :: rs, by rw [List.mapM_cons, hr, hrs]; rfl⟩

theorem observe_spec {o : Observer} (h : o.WF) (hz : o.blank = o) (srcs : List RadSource) (hne : srcs ≠ []) (hs : ∀ s ∈ srcs, s.Counted) :
    (∀ o', observe o srcs = .ok o' → 6 * o.keys.length < 2 ^ 31 ∧ o'.WF ∧ o'.blank = o ∧
      ∀ c ∈ o.cellsOf, ∃ q, sumM (fun s => o.share s c) srcs = .ok q ∧ ∀ k ∈ o.keys, k.1 = c → o'.get k = .ok (q k.2)) ∧
    ((6 * o.keys.length < 2 ^ 31 ∧ ∀ c ∈ o.cellsOf, ∃ q, sumM (fun s => o.share s c) srcs = .ok q) → ∃ o', observe o srcs = .ok o') := by
  cases srcs with
  | nil => exact absurd rfl hne
  | cons s srcs =>
    have core : ∀ rs, (s :: srcs).mapM (nodeObserve o) = .ok rs → 6 * o.keys.length < 2 ^ 31 →
        ∃ o', observe o (s :: srcs) = .ok o' ∧ o'.WF ∧ o'.blank = o ∧
          ∀ c ∈ o.cellsOf, ∃ q, sumM (fun s => o.share s c) (s :: srcs) = .ok q ∧ ∀ k ∈ o.keys, k.1 = c → o'.get k = .ok (q k.2) := by
      intro rs hrs h31
      obtain ⟨qs, e1, e2⟩ := nodes_ok h hz _ hs rs hrs h31
      have hcons := hrs
      rw [List.mapM_cons] at hcons
      cases h1 : nodeObserve o s with
      | error e => rw [h1] at hcons; cases hcons
      | ok r =>
        rw [h1] at hcons
        simp only [bind, Except.bind] at hcons
        cases h2 : srcs.mapM (nodeObserve o) with
        | error e => rw [h2] at hcons; cases hcons
        | ok rs' =>
          rw [h2] at hcons
          simp only [pure, Except.pure, Except.ok.injEq] at hcons
          subst hcons
          obtain ⟨q0, f1, w1, b1, _, f2⟩ := node_ok h hz (hs s (by simp)) h1
          have hcount : r.2.1 = 6 * o.keys.length := by
            rcases f2 with ⟨_, f3, _⟩ | ⟨f3, _⟩
            · exact f3
            · omega
          have hk : r.1.keys = o.keys := by rw [← keys_blank r.1, b1]
          cases qs with
          | nil => simp at e1
          | cons q qs =>
            have hred : reduceSum ((r :: rs').map (fun r => r.2.2)) = (o.keys.map (fun k => ((q :: qs).map (fun q => q k.1 k.2)).sum)).flatMap EMField.comps := by
              rw [e1]
              have := reduce_comps o.keys (fun k => q k.1 k.2) (qs.map (fun q (k : Key) => q k.1 k.2))
              simp only [List.map_cons, List.map_map] at this ⊢
              exact this
            obtain ⟨o', p1, p2, p3, p4⟩ := fromBuffer_fits w1 (small_fits (by rw [hk]; exact h31)) (fun k => ((q :: qs).map (fun q => q k.1 k.2)).sum)
            refine ⟨o', ?_, p2, p3.trans b1, ?_⟩
            · unfold observe
              rw [hrs]
              obtain ⟨r1, r2, r3⟩ := r
              simp only [bind, Except.bind]
              rw [hred]
              simp only at hcount hk p1
              rw [hcount, ← hk]
              exact p1
            · intro c hc
              refine ⟨((q :: qs).map (fun q => q c)).sum, ?_, ?_⟩
              · unfold sumM
                rw [e2 c hc]
                rfl
              · rintro ⟨c', it⟩ hk' rfl
                rw [p4 _ (by rw [hk]; exact hk')]
                congr 1
                have : ∀ l : List (Nat × Nat → Nat → EMField), (l.map (fun q => q c' it)).sum = (l.map (fun q => q c')).sum it := by
                  intro l
                  induction l with
                  | nil => rfl
                  | cons a l ih => simp only [List.map_cons, List.sum_cons, Pi.add_apply, ih]
                exact this _
    refine ⟨?_, ?_⟩
    · intro o' ho
      cases hrs : (s :: srcs).mapM (nodeObserve o) with
      | error e => unfold observe at ho; rw [hrs] at ho; cases ho
      | ok rs =>
        by_cases h31 : 6 * o.keys.length < 2 ^ 31
        · obtain ⟨o'', p1, p2⟩ := core rs hrs h31
          rw [ho] at p1
          injection p1 with p1
          subst p1
          exact ⟨h31, p2⟩
        · exfalso
          have hcons := hrs
          rw [List.mapM_cons] at hcons
          cases h1 : nodeObserve o s with
          | error e => rw [h1] at hcons; cases hcons
          | ok r =>
            rw [h1] at hcons
            simp only [bind, Except.bind] at hcons
            cases h2 : srcs.mapM (nodeObserve o) with
            | error e => rw [h2] at hcons; cases hcons
            | ok rs' =>
              rw [h2] at hcons
              simp only [pure, Except.pure, Except.ok.injEq] at hcons
              subst hcons
              obtain ⟨q0, f1, w1, b1, _, f2⟩ := node_ok h hz (hs s (by simp)) h1
              rcases f2 with ⟨f3, _⟩ | ⟨_, f3⟩
              · exact h31 f3
              · obtain ⟨e, he⟩ := f3 (reduceSum ((r :: rs').map (fun r => r.2.2)))
                unfold observe at ho
                rw [hrs] at ho
                obtain ⟨r1, r2, r3⟩ := r
                simp only [bind, Except.bind] at ho
                rw [he] at ho
                cases ho
    · rintro ⟨h31, hc⟩
      obtain ⟨rs, hrs⟩ := nodes_progress h hz (s :: srcs) hs h31 (by
        intro s' hs' c hc'
        exact (sumM_ok_iff _ _).mp (hc c hc') s' hs')
      obtain ⟨o', p1, _⟩ := core rs hrs h31
      exact ⟨o', p1⟩

theorem observe_agree {o : Observer} (h : o.WF) (hz : o.blank = o) (srcs srcs' : List RadSource) (hne : srcs ≠ []) (hne' : srcs' ≠ [])
    (hs : ∀ s ∈ srcs, s.Counted) (hs' : ∀ s ∈ srcs', s.Counted) (he : ∀ c ∈ o.cellsOf, ∀ q, sumM (fun s => o.share s c) srcs = .ok q ↔ sumM (fun s => o.share s c) srcs' = .ok q) :
    match observe o srcs, observe o srcs' with
    | .ok a, .ok b => a = b
    | .error _, .error _ => True
    | _, _ => False := by
  obtain ⟨hA, hB⟩ := observe_spec h hz srcs hne hs
  obtain ⟨hA', hB'⟩ := observe_spec h hz srcs' hne' hs'
  cases ho : observe o srcs with
  | ok a =>
    obtain ⟨a1, a2, a3, a4⟩ := hA a ho
    obtain ⟨b, hb⟩ := hB' ⟨a1, fun c hc => by
      obtain ⟨q, hq, _⟩ := a4 c hc
      exact ⟨q, (he c hc q).mp hq⟩⟩
    rw [hb]
    obtain ⟨b1, b2, b3, b4⟩ := hA' b hb
    simp only
    refine ext' a2 b2 (a3.trans b3.symm) ?_
    intro k hk
    have hk' : k ∈ o.keys := by rw [← a3, keys_blank]; exact hk
    obtain ⟨q, hq, hg⟩ := a4 k.1 (key_cell hk')
    obtain ⟨q', hq', hg'⟩ := b4 k.1 (key_cell hk')
    rw [hg k hk' rfl, hg' k hk' rfl]
    have := (he k.1 (key_cell hk') q).mp hq
    rw [hq'] at this
    injection this with this
    rw [this]
  | error e =>
    cases hb : observe o srcs' with
    | error e' => trivial
    | ok b =>
      obtain ⟨b1, b2, b3, b4⟩ := hA' b hb
      obtain ⟨a, ha⟩ := hB ⟨b1, fun c hc => by
        obtain ⟨q, hq, _⟩ := b4 c hc
        exact ⟨q, (he c hc q).mpr hq⟩⟩
      rw [ho] at ha
      cases ha

/-- the share of a beam is the sum of the shares of its particles -/
noncomputable def pshare (o : Observer) (c : Nat × Nat) (p : Particle) : Except Err (Nat → EMField) :=
  match o with
  | .screen s => traceShare (s.CellPosition c.1 c.2) (s.CellTimeZero c.1 c.2) s.dt s.NOTS p
  | .snapshot s => (p.RetardedFieldAt s.tObs (s.CellPosition c.1 c.2)).map (fun f _ => f)
  | .point s => traceShare s.Pos s.trace.t0 s.trace.dt s.trace.N p
  | .mesh s => do
    let pos ← MeshObs.at' s.points c.1
    let tr ← MeshObs.at' s.A c.1
    traceShare pos tr.t0 tr.dt s.Nt p

theorem sumM_const {α : Type} (f : α → Except Err EMField) (l : List α) :
    sumM (fun a => (f a).map (fun (x : EMField) (_ : Nat) => x)) l = (sumM f l).map (fun x _ => x) := by
  induction l with
  | nil => rfl
  | cons a l ih =>
    rw [sumM_cons, sumM_cons, ih]
    cases f a with
    | error e => rfl
    | ok x => cases sumM f l <;> rfl

theorem share_beam {o : Observer} (h : o.WF) (b : Beam) {c : Nat × Nat} (hc : c ∈ o.cellsOf) : o.share (.beam b) c = sumM (o.pshare c) b.all := by
  cases o with
  | screen s => rfl
  | snapshot s => exact (sumM_const _ _).symm
  | point s => rfl
  | mesh s =>
    simp only [cellsOf, List.mem_map, List.mem_range] at hc
    obtain ⟨i, hi, rfl⟩ := hc
    have hi' : i < s.A.length := by rw [h.cellNum]; exact hi
    have hat : MeshObs.at' s.A i = .ok s.A[i] := by unfold MeshObs.at'; rw [List.getElem?_eq_getElem hi']
    have hp' : i < s.points.length := by rw [h.points]; exact hi
    have hp : MeshObs.at' s.points i = .ok s.points[i] := by unfold MeshObs.at'; rw [List.getElem?_eq_getElem hp']
    simp only [share, hat, hp, bind, Except.bind, shareAt]
    apply sumM_congr
    intro p _
    simp only [pshare, hat, hp, bind, Except.bind]

end Observer
end Teufel
