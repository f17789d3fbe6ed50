import Verif.Model.Output
import Verif.Props.HybridSerial

/-! # Lemmas about the output of the tracking loop -/

namespace Teufel
open Vec

variable {σ ω : Type}

theorem foldlM_range_prefix {α} (f : α → Nat → Except Err α) (a : α) (k : Nat) (w : α) (h : (List.range k).foldlM f a = .ok w) (j : Nat) (hj : j ≤ k) :
    ∃ w', (List.range j).foldlM f a = .ok w' := by
  induction k generalizing w with
  | zero => have : j = 0 := by omega
            subst this; exact ⟨w, h⟩
  | succ k ih =>
    rcases Nat.lt_or_ge j (k + 1) with hlt | hge
    · rw [List.range_succ, List.foldlM_append] at h
      cases hk : (List.range k).foldlM f a with
      | error e => rw [hk] at h; cases h
      | ok w' => exact ih w' hk (by omega)
    · have : j = k + 1 := by omega
      subst this
      exact ⟨w, h⟩

/-- a run which reaches step `k` passed all earlier steps -/
theorem runSteps_prefix (R : Run σ ω) (ms : List Beam) (s : σ) (out : ω) (k : Nat) (w : World σ ω) (h : runSteps R ms s out k = .ok w)
    (j : Nat) (hj : j ≤ k) : ∃ w', runSteps R ms s out j = .ok w' := by
  unfold runSteps at h ⊢
  cases hs : setupRun R ms s out with
  | error e => rw [hs] at h; cases h
  | ok w0 =>
    rw [hs] at h
    exact foldlM_range_prefix _ _ k w h j hj

/-- master and tracked beam of rank 0 -/
def World.root (w : World σ ω) : Option (Beam × Beam) := w.nodes.head?.map (fun n => (n.master, n.tracked))

theorem mapM_head {α β} {f : α → Except Err β} {l : List α} {l' : List β} (h : l.mapM f = .ok l') {a : α} (ha : l.head? = some a) :
    ∃ b, f a = .ok b ∧ l'.head? = some b := by
  rw [List.head?_eq_getElem?] at ha
  obtain ⟨b, h1, h2⟩ := mapM_get h 0 a ha
  exact ⟨b, h1, by rw [List.head?_eq_getElem?]; exact h2⟩

theorem interact_head {f : Beam → σ → Except Err σ} {l l' : List (Node σ)} (h : l.mapM (Node.interact f) = .ok l') {n : Node σ}
    (hn : l.head? = some n) : ∃ n', l'.head? = some n' ∧ n'.master = n.master ∧ n'.tracked = n.tracked := by
  obtain ⟨n', h1, h2⟩ := mapM_head h hn
  unfold Node.interact at h1
  cases hf : f n.master n.inter with
  | error e => rw [hf] at h1; cases h1
  | ok s => rw [hf] at h1; simp only [Except.map] at h1; injection h1 with h1; subst h1; exact ⟨_, h2, rfl, rfl⟩

theorem rankZero_head {f : Beam → Beam → ω → Except Err ω} {l : List (Node σ)} {n : Node σ} (hn : l.head? = some n) (o : ω) :
    rankZero f l o = f n.master n.tracked o := by
  cases l with
  | nil => simp at hn
  | cons a l => simp at hn; subst hn; rfl

/-- the first output -/
theorem run_start (R : Run σ ω) (ms : List Beam) (s : σ) (out : ω) (w : World σ ω) (h : runSteps R ms s out 0 = .ok w) :
    ∃ m t, w.root = some (m, t) ∧ R.startOut m t out = .ok w.out := by
  unfold runSteps setupRun at h
  cases ms with
  | nil => cases h
  | cons m0 ms =>
    simp only [bind, Except.bind, pure, Except.pure, List.range_zero, List.foldlM_nil] at h
    cases h1 : m0.getNOP with
    | error e => rw [h1] at h; cases h
    | ok nop =>
      rw [h1] at h
      simp only at h
      by_cases hsz : trackingNOP nop R.nodes * R.nodes * 10 < nop * 10
      · rw [if_pos hsz] at h; cases h
      · rw [if_neg hsz] at h
        cases h2 : m0.bufferStep with
        | error e => rw [h2] at h; cases h
        | ok vals =>
          rw [h2] at h
          simp only at h
          cases h3 : intoBuffer (trackingNOP nop R.nodes * R.nodes * 10) (R.junk 0 0) vals with
          | error e => rw [h3] at h; cases h
          | ok buf =>
            rw [h3] at h
            simp only at h
            cases h4 : (m0 :: ms).mapM (fun m : Beam => setupMaster m buf R.NOTS) with
            | error e => rw [h4] at h; cases h
            | ok masters =>
              rw [h4] at h
              simp only at h
              cases h5 : masters.zipIdx.mapM (fun mr : Beam × Nat => setupNode R mr.1 s mr.2) with
              | error e => rw [h5] at h; cases h
              | ok nodes =>
                rw [h5] at h
                simp only at h
                obtain ⟨b, _, hb⟩ := mapM_head h4 rfl
                have hz : masters.zipIdx.head? = some (b, 0) := by
                  rw [List.head?_eq_getElem?] at hb ⊢
                  rw [List.getElem?_zipIdx, hb]
                  rfl
                obtain ⟨n, _, hn⟩ := mapM_head h5 hz
                rw [rankZero_head hn] at h
                cases h6 : R.startOut n.master n.tracked out with
                | error e => rw [h6] at h; cases h
                | ok o =>
                  rw [h6] at h
                  simp only at h
                  cases h7 : nodes.mapM (Node.interact R.initInter) with
                  | error e => rw [h7] at h; cases h
                  | ok nodes' =>
                    rw [h7] at h
                    simp only at h
                    injection h with h
                    subst h
                    obtain ⟨n', hn', e1, e2⟩ := interact_head h7 hn
                    exact ⟨n.master, n.tracked, by simp [World.root, hn', e1, e2], h6⟩

/-- the output of one step -/
theorem run_next (R : Run σ ω) (ms : List Beam) (s : σ) (out : ω) (k : Nat) (w w' : World σ ω) (hw : runSteps R ms s out k = .ok w)
    (hr : ∃ r, w.root = some r) (h : runSteps R ms s out (k + 1) = .ok w') :
    ∃ m t, w'.root = some (m, t) ∧ R.stepOut (k + 1) m t w.out = .ok w'.out := by
  unfold runSteps at h hw
  cases hs : setupRun R ms s out with
  | error e => rw [hs] at h; cases h
  | ok w0 =>
    rw [hs] at h hw
    simp only [bind, Except.bind] at h hw
    rw [List.range_succ, List.foldlM_append, hw] at h
    simp only [bind, Except.bind, List.foldlM_cons, List.foldlM_nil] at h
    cases ht : trackStep R w k with
    | error e => rw [ht] at h; cases h
    | ok w1 =>
      rw [ht] at h
      simp only [pure, Except.pure] at h
      injection h with h
      subst h
      obtain ⟨r, hr⟩ := hr
      have hroot : ∃ n, w.nodes.head? = some n := by
        unfold World.root at hr
        cases hh : w.nodes.head? with
        | none => rw [hh] at hr; cases hr
        | some n => exact ⟨n, rfl⟩
      obtain ⟨n, hn⟩ := hroot
      unfold trackStep at ht
      simp only [bind, Except.bind, pure, Except.pure] at ht
      cases h1 : w.nodes.mapM (Node.advance R) with
      | error e => rw [h1] at ht; cases ht
      | ok nodes1 =>
        rw [h1] at ht
        simp only at ht
        obtain ⟨n1, _, hn1⟩ := mapM_head h1 hn
        cases h2 : nodes1.zipIdx.mapM (Node.contribution R k) with
        | error e => rw [h2] at ht; cases ht
        | ok bufs =>
          rw [h2] at ht
          simp only at ht
          cases h3 : nodes1.mapM (Node.receive k bufs.flatten) with
          | error e => rw [h3] at ht; cases ht
          | ok nodes2 =>
            rw [h3] at ht
            simp only at ht
            obtain ⟨n2, _, hn2⟩ := mapM_head h3 hn1
            rw [rankZero_head hn2] at ht
            cases h4 : R.stepOut (k + 1) n2.master n2.tracked w.out with
            | error e => rw [h4] at ht; cases ht
            | ok o =>
              rw [h4] at ht
              simp only at ht
              cases h5 : nodes2.mapM (Node.interact R.stepInter) with
              | error e => rw [h5] at ht; cases ht
              | ok nodes3 =>
                rw [h5] at ht
                simp only at ht
                injection ht with ht
                subst ht
                obtain ⟨n3, hn3, e1, e2⟩ := interact_head h5 hn2
                exact ⟨n2.master, n2.tracked, by simp [World.root, hn3, e1, e2], h4⟩

theorem run_root (R : Run σ ω) (ms : List Beam) (s : σ) (out : ω) (k : Nat) (w : World σ ω) (hw : runSteps R ms s out k = .ok w) :
    ∃ r, w.root = some r := by
  induction k generalizing w with
  | zero =>
    obtain ⟨m, t, h, _⟩ := run_start R ms s out w hw
    exact ⟨_, h⟩
  | succ k ih =>
    obtain ⟨w', hw'⟩ := runSteps_prefix R ms s out (k + 1) w hw k (by omega)
    obtain ⟨m, t, h, _⟩ := run_next R ms s out k w' w hw' (ih w' hw') hw
    exact ⟨_, h⟩

end Teufel
