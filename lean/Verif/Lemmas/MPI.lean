import Verif.Model.MPI
import Mathlib.Logic.Hydra
import Mathlib.Data.Fintype.Basic
import Mathlib.Data.Finset.Insert

/-! # Concurrent nodes: the order of actions does not matter -/

namespace Teufel
open Function

variable {n : Nat}

namespace Job

theorem Move.det {job : Job n} {i : Fin n} {r r' : Rank} (h : job.Move i r) (h' : job.Move i r') : r = r' := by
  cases h with
  | write h => cases h' <;> simp_all
  | enter h out => cases h' <;> simp_all
  | leave h inn last ready => cases h' <;> simp_all

/-- the calls entered by a node are kept -/
theorem Move.posted {job : Job n} {i : Fin n} {r : Rank} (h : job.Move i r) : (job i).posted <+: r.posted := by
  cases h with
  | write h => exact List.prefix_rfl
  | enter h out => exact List.prefix_append _ _
  | leave h inn last ready => exact List.prefix_rfl

theorem Move.files {job : Job n} {i : Fin n} {r : Rank} (h : job.Move i r) : (job i).files <+: r.files := by
  cases h with
  | write h => exact List.prefix_append _ _
  | enter h out => exact List.prefix_rfl
  | leave h inn last ready => exact List.prefix_rfl

theorem deliver_congr {cs cs' : Fin n → Call} (c : Call) (i : Fin n) (h : ∀ r, c.needs i r → cs r = cs' r) : c.deliver cs i = c.deliver cs' i := by
  cases c with
  | barrier => rfl
  | bcast buf =>
    simp only [Call.deliver]
    cases n with
    | zero => exact i.elim0
    | succ n =>
      have := h 0 rfl
      simp [List.ofFn_succ, this]
  | allgather buf =>
    have : cs = cs' := funext fun r => h r trivial
    rw [this]
  | reduce buf =>
    simp only [Call.deliver]
    split_ifs with hi
    · have : cs = cs' := funext fun r => h r hi
      rw [this]
    · rfl

theorem getD_prefix {α : Type} {l l' : List α} (h : l <+: l') (d : α) {k : Nat} (hk : k < l.length) : l'.getD k d = l.getD k d := by
  obtain ⟨t, rfl⟩ := h
  simp [List.getD_eq_getElem?_getD, List.getElem?_append_left hk]

/-- an action of another node does not disturb -/
theorem Move.other {job : Job n} {i i' : Fin n} (hne : i ≠ i') {r r' : Rank} (h : job.Move i r) (h' : job.Move i' r') : Job.Move (update job i r) i' r' := by
  have hi : (update job i r) i' = job i' := update_of_ne hne.symm _ _
  have hp : ∀ s, (job s).posted <+: ((update job i r) s).posted := by
    intro s
    by_cases hs : s = i
    · subst hs; rw [update_self]; exact h.posted
    · rw [update_of_ne hs]
  cases h' with
  | write h => rw [← hi] at h ⊢; exact .write h
  | enter h out => rw [← hi] at h out ⊢; exact .enter h out
  | @leave c next k h inn last ready =>
    have e : c.deliver (job.round k) i' = c.deliver (Job.round (update job i r) k) i' :=
      deliver_congr c i' fun s hs => (getD_prefix (hp s) _ (ready s hs)).symm
    rw [e]
    rw [← hi] at h inn last ⊢
    exact .leave h inn last (fun s hs => (ready s hs).trans_le (hp s).length_le)

/-- actions of different nodes can be exchanged -/
theorem diamond {job a b : Job n} (ha : job.Step a) (hb : job.Step b) : a = b ∨ ∃ d, Job.Step a d ∧ Job.Step b d := by
  obtain ⟨i, r, hi, rfl⟩ := ha
  obtain ⟨j, q, hj, rfl⟩ := hb
  by_cases hij : i = j
  · subst hij
    rw [hi.det hj]
    exact .inl rfl
  · refine .inr ⟨update (update job i r) j q, ⟨j, q, hi.other hij hj, rfl⟩, i, r, hj.other (Ne.symm hij) hi, ?_⟩
    rw [update_comm hij]

theorem Steps.trans {k l : Nat} {a b c : Job n} (h : Steps k a b) (h' : Steps l b c) : Steps (k + l) a c := by
  induction h with
  | zero => simpa using h'
  | succ h _ ih => rw [Nat.add_right_comm]; exact .succ h (ih h')

theorem Steps.one {a b : Job n} (h : Job.Step a b) : Steps 1 a b := .succ h (.zero _)

/-- one action against many -/
theorem strip {k : Nat} {a b c : Job n} (h : Job.Step a b) (h' : Steps k a c) : (∃ l, l + 1 = k ∧ Steps l b c) ∨ ∃ d, Steps k b d ∧ Job.Step c d := by
  induction h' generalizing b with
  | zero => exact .inr ⟨b, .zero _, h⟩
  | @succ k x y z hxy hyz ih =>
    rcases diamond h hxy with rfl | ⟨d, hbd, hyd⟩
    · exact .inl ⟨k, rfl, hyz⟩
    · rcases ih hyd with ⟨l, rfl, hl⟩ | ⟨d', h1, h2⟩
      · exact .inl ⟨l + 1, rfl, .succ hbd hl⟩
      · exact .inr ⟨d', .succ hbd h1, h2⟩

/-- two executions can be continued to a common state -/
theorem confluent {k l : Nat} {a b c : Job n} (h : Steps k a b) (h' : Steps l a c) : ∃ d k' l', Steps k' b d ∧ Steps l' c d ∧ k + k' = l + l' := by
  induction h generalizing l c with
  | zero => exact ⟨c, l, 0, h', .zero _, by omega⟩
  | @succ k x y z hxy hyz ih =>
    rcases strip hxy h' with ⟨m, rfl, hm⟩ | ⟨d, hd, hcd⟩
    · obtain ⟨d, k', l', h1, h2, h3⟩ := ih hm
      exact ⟨d, k', l', h1, h2, by omega⟩
    · obtain ⟨d', k', l', h1, h2, h3⟩ := ih hd
      exact ⟨d', k', l' + 1, h1, .succ hcd h2, by omega⟩

theorem Steps.posted {k : Nat} {a b : Job n} (h : Steps k a b) (i : Fin n) : (a i).posted <+: (b i).posted := by
  induction h with
  | zero => exact List.prefix_rfl
  | succ h _ ih =>
    obtain ⟨j, r, hj, rfl⟩ := h
    refine .trans ?_ ih
    by_cases hs : i = j
    · subst hs; rw [update_self]; exact hj.posted
    · rw [update_of_ne hs]

theorem Steps.files {k : Nat} {a b : Job n} (h : Steps k a b) (i : Fin n) : (a i).files <+: (b i).files := by
  induction h with
  | zero => exact List.prefix_rfl
  | succ h _ ih =>
    obtain ⟨j, r, hj, rfl⟩ := h
    refine .trans ?_ ih
    by_cases hs : i = j
    · subst hs; rw [update_self]; exact hj.files
    · rw [update_of_ne hs]

/-- a node that has finished or failed does not act -/
def Ended (p : Proc) : Prop := p = .done ∨ ∃ e, p = .fail e

theorem Move.not_ended {job : Job n} {i : Fin n} {r : Rank} (h : job.Move i r) : ¬ Ended (job i).prog := by
  rintro (h' | ⟨e, h'⟩) <;> cases h <;> simp_all

theorem Steps.ended {k : Nat} {a b : Job n} (h : Steps k a b) {i : Fin n} (hi : Ended (a i).prog) : b i = a i := by
  induction h with
  | zero => rfl
  | succ h _ ih =>
    obtain ⟨j, r, hj, rfl⟩ := h
    have hs : i ≠ j := by rintro rfl; exact hj.not_ended hi
    rw [update_of_ne hs] at ih
    exact ih hi

theorem Steps.all_ended {k : Nat} {a b : Job n} (h : Steps k a b) (ha : ∀ i, Ended (a i).prog) : k = 0 ∧ b = a := by
  cases h with
  | zero => exact ⟨rfl, rfl⟩
  | succ h _ =>
    obtain ⟨j, r, hj, rfl⟩ := h
    exact (hj.not_ended (ha j)).elim

/-! ## No infinite executions -/

/-- order of the states of a node -/
inductive Less : Proc × Bool → Proc × Bool → Prop
  | write {f p b} : Less (p, b) (.write f p, b)
  | enter {c next} : Less (.call c next, true) (.call c next, false)
  | leave {c next d} : Less (next d, false) (.call c next, true)

theorem less_wf : WellFounded Less := by
  have key : ∀ p : Proc, ∀ b, Acc Less (p, b) := by
    intro p
    induction p with
    | done => intro b; exact ⟨_, fun _ h => by cases h⟩
    | fail e => intro b; exact ⟨_, fun _ h => by cases h⟩
    | write f p ih => intro b; exact ⟨_, fun _ h => by cases h; exact ih b⟩
    | call c next ih =>
      have ht : Acc Less (.call c next, true) := ⟨_, fun _ h => by cases h; exact ih _ _⟩
      intro b
      cases b
      · exact ⟨_, fun _ h => by cases h; exact ht⟩
      · exact ht
  exact ⟨fun ⟨p, b⟩ => key p b⟩

theorem Move.less {job : Job n} {i : Fin n} {r : Rank} (h : job.Move i r) : Less (r.prog, r.inside) ((job i).prog, (job i).inside) := by
  cases h with
  | write h => simp only [h]; exact .write
  | enter h out => simp only [h, out]; exact .enter
  | leave h inn last ready => simp only [h, inn]; exact .leave

/-- states of all nodes as a multiset -/
def states (job : Job n) : Multiset (Proc × Bool) := Finset.univ.val.map (fun i => ((job i).prog, (job i).inside))

theorem Step.cut {a b : Job n} (h : a.Step b) : Relation.CutExpand Less (states b) (states a) := by
  obtain ⟨i, r, hi, rfl⟩ := h
  refine ⟨{(r.prog, r.inside)}, ((a i).prog, (a i).inside), ?_, ?_⟩
  · intro x hx
    rw [Multiset.mem_singleton] at hx
    subst hx
    exact hi.less
  · unfold states
    have hu : (Finset.univ : Finset (Fin n)).val = i ::ₘ (Finset.univ.erase i).val := by
      rw [← Finset.insert_val_of_notMem (Finset.notMem_erase i _), Finset.insert_erase (Finset.mem_univ i)]
    rw [hu, Multiset.map_cons, Multiset.map_cons, update_self]
    have he : (Finset.univ.erase i).val.map (fun j => ((update a i r j).prog, (update a i r j).inside))
        = (Finset.univ.erase i).val.map (fun j => ((a j).prog, (a j).inside)) := by
      refine Multiset.map_congr rfl fun j hj => ?_
      have : j ≠ i := Finset.ne_of_mem_erase (Finset.mem_val.mp hj)
      rw [update_of_ne this]
    rw [he, ← Multiset.singleton_add, ← Multiset.singleton_add]
    abel

theorem no_infinite : ¬ ∃ run : Nat → Job n, ∀ k, Job.Step (run k) (run (k + 1)) := by
  rintro ⟨run, h⟩
  have hwf : WellFounded (Relation.CutExpand Less) := less_wf.cutExpand
  exact (wellFounded_iff_isEmpty_descending_chain.mp hwf).elim ⟨fun k => states (run k), fun k => (h k).cut⟩

/-! ## Executions in lockstep -/

/-- what happens if the nodes proceed in rounds: the files written by every node, or an exception somewhere -/
inductive Lock : (Fin n → Proc) → Option (Fin n → List OutFile) → Prop
  | done {ps} (h : ∀ i, ps i = .done) : Lock ps (some fun _ => [])
  | fail {ps i e} (h : ps i = .fail e) : Lock ps none
  | write {ps i f p o} (h : ps i = .write f p) (h' : Lock (update ps i p) o) : Lock ps (o.map fun fs => update fs i (f :: fs i))
  | call {ps} {c : Fin n → Call} {next : Fin n → List ℝ → Proc} {o} (h : ∀ i, ps i = .call (c i) (next i)) (hk : ∀ i i', (c i).kind = (c i').kind)
      (h' : Lock (fun i => next i ((c i).deliver c i)) o) : Lock ps o

/-- the operations entered agree -/
def Consistent (job : Job n) : Prop :=
  ∀ (i i' : Fin n) (k : Nat) (c c' : Call), (job i).posted[k]? = some c → (job i').posted[k]? = some c' → c.kind = c'.kind

theorem Consistent.of_steps {k : Nat} {a b : Job n} (h : Steps k a b) (hb : Consistent b) : Consistent a := by
  have key : ∀ (i : Fin n) (k : Nat) (c : Call), (a i).posted[k]? = some c → (b i).posted[k]? = some c := by
    intro i k c hc
    obtain ⟨t, ht⟩ := h.posted i
    rw [← ht, List.getElem?_append_left (List.getElem?_eq_some_iff.mp hc).1]
    exact hc
  exact fun i i' k c c' h1 h2 => hb i i' k c c' (key i k c h1) (key i' k c' h2)

/-- some of the nodes have acted -/
noncomputable def mix (job g : Job n) (S : Finset (Fin n)) : Job n := fun i => if i ∈ S then g i else job i

theorem all_move {job g : Job n} (h : ∀ S a, a ∉ S → (mix job g S).Move a (g a)) : ∃ k, Steps k job g := by
  classical
  have key : ∀ S : Finset (Fin n), ∃ k, Steps k job (mix job g S) := by
    intro S
    induction S using Finset.induction_on with
    | empty =>
      have e : mix job g ∅ = job := funext fun i => by simp [mix]
      exact ⟨0, e ▸ Steps.zero job⟩
    | @insert a S ha ih =>
      obtain ⟨k, hk⟩ := ih
      refine ⟨k + 1, hk.trans (.one ⟨a, g a, h S a ha, ?_⟩)⟩
      funext i
      by_cases hi : i = a
      · subst hi; rw [update_self]; simp [mix]
      · rw [update_of_ne hi]; simp [mix, hi]
  obtain ⟨k, hk⟩ := key Finset.univ
  have e : mix job g Finset.univ = g := funext fun i => by simp [mix]
  exact ⟨k, e ▸ hk⟩

/-- all nodes enter an operation -/
theorem enter_all {job : Job n} {c : Fin n → Call} {next : Fin n → List ℝ → Proc} (h : ∀ i, (job i).prog = .call (c i) (next i)) (out : ∀ i, (job i).inside = false) :
    ∃ k, Steps k job (fun i => { job i with posted := (job i).posted ++ [c i], inside := true }) := by
  refine all_move fun S a ha => ?_
  have e : mix job (fun i => { job i with posted := (job i).posted ++ [c i], inside := true }) S a = job a := by simp [mix, ha]
  have := Move.enter (job := mix job (fun i => { job i with posted := (job i).posted ++ [c i], inside := true }) S)
    (i := a) (c := c a) (next := next a) (by rw [e]; exact h a) (by rw [e]; exact out a)
  rw [e] at this
  exact this

/-- all nodes leave an operation -/
theorem leave_all {job : Job n} {c : Fin n → Call} {next : Fin n → List ℝ → Proc} {len : Nat} (h : ∀ i, (job i).prog = .call (c i) (next i)) (inn : ∀ i, (job i).inside = true)
    (hlen : ∀ i, (job i).posted.length = len + 1) (hlast : ∀ i, (job i).posted[len]? = some (c i)) :
    ∃ k, Steps k job (fun i => { job i with prog := next i ((c i).deliver c i), inside := false }) := by
  refine all_move fun S a ha => ?_
  have e : mix job (fun i => { job i with prog := next i ((c i).deliver c i), inside := false }) S a = job a := by simp [mix, ha]
  have hp : ∀ r, (mix job (fun i => { job i with prog := next i ((c i).deliver c i), inside := false }) S r).posted = (job r).posted := by
    intro r
    by_cases hr : r ∈ S <;> simp [mix, hr]
  have := Move.leave (job := mix job (fun i => { job i with prog := next i ((c i).deliver c i), inside := false }) S)
    (i := a) (c := c a) (next := next a) (k := len) (by rw [e]; exact h a) (by rw [e]; exact inn a) (by rw [hp, hlen])
    (fun r _ => by rw [hp, hlen]; omega)
  have hr : Job.round (mix job (fun i => { job i with prog := next i ((c i).deliver c i), inside := false }) S) len = c := by
    funext r
    unfold Job.round
    rw [hp, List.getD_eq_getElem?_getD, hlast]
    rfl
  rw [hr, e] at this
  exact this

/-- nodes between two rounds -/
def Even (job : Job n) (ps : Fin n → Proc) : Prop :=
  (∀ i, (job i).prog = ps i ∧ (job i).inside = false) ∧ (∃ len, ∀ i, (job i).posted.length = len) ∧ Consistent job

/-- the end of an execution that started at `job` -/
def Ends (job job' : Job n) : Option (Fin n → List OutFile) → Prop
  | some fs => (∀ i, (job' i).prog = .done ∧ (job' i).files = (job i).files ++ fs i) ∧ Consistent job'
  | none => ∃ i e, (job' i).prog = .fail e

theorem Lock.execution {ps : Fin n → Proc} {o : Option (Fin n → List OutFile)} (h : Lock ps o) : ∀ job : Job n, Even job ps →
    ∃ k job', Steps k job job' ∧ Ends job job' o := by
  induction h with
  | done h => exact fun job hj => ⟨0, job, .zero _, fun i => ⟨(hj.1 i).1.trans (h i), by simp⟩, hj.2.2⟩
  | @fail ps i e h => exact fun job hj => ⟨0, job, .zero _, i, e, (hj.1 i).1.trans h⟩
  | @write ps i f p o h _ ih =>
    intro job hj
    have hm : job.Move i { job i with prog := p, files := (job i).files ++ [f] } := .write ((hj.1 i).1.trans h)
    have hp : ∀ r, (update job i { job i with prog := p, files := (job i).files ++ [f] } r).posted = (job r).posted := by
      intro r
      by_cases hr : r = i
      · subst hr; rw [update_self]
      · rw [update_of_ne hr]
    obtain ⟨k, job', hk, ho⟩ := ih (update job i { job i with prog := p, files := (job i).files ++ [f] }) (by
      refine ⟨fun r => ?_, ?_, ?_⟩
      · by_cases hr : r = i
        · subst hr; rw [update_self, update_self]; exact ⟨rfl, (hj.1 r).2⟩
        · rw [update_of_ne hr, update_of_ne hr]; exact hj.1 r
      · obtain ⟨len, hl⟩ := hj.2.1
        exact ⟨len, fun r => by rw [hp, hl]⟩
      · intro a b k c c' h1 h2
        rw [hp] at h1 h2
        exact hj.2.2 a b k c c' h1 h2)
    refine ⟨k + 1, job', .succ ⟨i, _, hm, rfl⟩ hk, ?_⟩
    cases o with
    | none => exact ho
    | some fs =>
      refine ⟨fun r => ⟨(ho.1 r).1, ?_⟩, ho.2⟩
      rw [(ho.1 r).2]
      by_cases hr : r = i
      · subst hr; simp
      · simp [update_of_ne hr]
  | @call ps c next o h hk _ ih =>
    intro job hj
    obtain ⟨len, hl⟩ := hj.2.1
    obtain ⟨k1, h1⟩ := enter_all (job := job) (c := c) (next := next) (fun i => (hj.1 i).1.trans (h i)) (fun i => (hj.1 i).2)
    obtain ⟨k2, h2⟩ := leave_all (job := fun i => { job i with posted := (job i).posted ++ [c i], inside := true }) (c := c) (next := next) (len := len)
      (fun i => (hj.1 i).1.trans (h i)) (fun i => rfl) (fun i => by simp [hl]) (fun i => by simp [← hl i])
    obtain ⟨k3, job', h3, ho⟩ := ih (fun i => { job i with prog := next i ((c i).deliver c i), posted := (job i).posted ++ [c i], inside := false }) (by
      refine ⟨fun i => ⟨rfl, rfl⟩, ⟨len + 1, fun i => by simp [hl]⟩, ?_⟩
      intro a b k x y hx hy
      simp only at hx hy
      by_cases hlt : k < len
      · rw [List.getElem?_append_left (by rw [hl]; exact hlt)] at hx hy
        exact hj.2.2 a b k x y hx hy
      · rw [List.getElem?_append_right (by rw [hl]; omega), hl] at hx hy
        have hx' := List.getElem?_eq_some_iff.mp hx
        have hy' := List.getElem?_eq_some_iff.mp hy
        obtain ⟨p1, p2⟩ := hx'
        obtain ⟨q1, q2⟩ := hy'
        simp only [List.getElem_singleton] at p2 q2
        rw [← p2, ← q2]
        exact hk a b)
    refine ⟨_, job', (h1.trans h2).trans h3, ?_⟩
    cases o <;> exact ho

/-- every execution of nodes that succeed in lockstep -/
theorem Lock.all_ok {ps : Fin n → Proc} {fs : Fin n → List OutFile} (h : Lock ps (some fs)) {k : Nat} {job : Job n} (hj : Steps k (start ps) job) :
    Consistent job ∧ (∀ i, (job i).files <+: fs i) ∧ (∀ i e, (job i).prog ≠ .fail e) ∧
      ((∃ job', Job.Step job job') ∨ ∀ i, (job i).prog = .done ∧ (job i).files = fs i) := by
  obtain ⟨m, last, hl, h1, h2⟩ := h.execution (start ps) ⟨fun i => ⟨rfl, rfl⟩, ⟨0, fun i => rfl⟩, fun i i' k c c' h => by simp [start] at h⟩
  obtain ⟨d, k', l', e1, e2, _⟩ := confluent hj hl
  obtain ⟨_, rfl⟩ := e2.all_ended (fun i => .inl (h1 i).1)
  have hf : ∀ i, (d i).files = fs i := fun i => by rw [(h1 i).2]; rfl
  refine ⟨.of_steps e1 h2, fun i => hf i ▸ e1.files i, ?_, ?_⟩
  · intro i e he
    have := e1.ended (i := i) (.inr ⟨e, he⟩)
    rw [← this, (h1 i).1] at he
    cases he
  · cases e1 with
    | zero => exact .inr fun i => ⟨(h1 i).1, hf i⟩
    | succ h _ => exact .inl ⟨_, h⟩

/-- every execution of nodes that succeed in lockstep can be completed, with the same number of actions -/
theorem Lock.completes {ps : Fin n → Proc} {fs : Fin n → List OutFile} (h : Lock ps (some fs)) :
    ∃ total, ∀ k job, Steps k (start ps) job → ∃ l last, Steps l job last ∧ k + l = total ∧ ∀ i, (last i).prog = .done ∧ (last i).files = fs i := by
  obtain ⟨m, last, hl, h1, h2⟩ := h.execution (start ps) ⟨fun i => ⟨rfl, rfl⟩, ⟨0, fun i => rfl⟩, fun i i' k c c' h => by simp [start] at h⟩
  refine ⟨m, fun k job hj => ?_⟩
  obtain ⟨d, k', l', e1, e2, e3⟩ := confluent hj hl
  obtain ⟨hz, rfl⟩ := e2.all_ended (fun i => .inl (h1 i).1)
  exact ⟨k', d, e1, by omega, fun i => ⟨(h1 i).1, by rw [(h1 i).2]; rfl⟩⟩

/-- every execution of nodes one of which fails in lockstep -/
theorem Lock.all_error {ps : Fin n → Proc} (h : Lock ps none) {k : Nat} {job : Job n} (hj : Steps k (start ps) job) :
    (¬ ∀ i, (job i).prog = .done) ∧ ((∃ job', Job.Step job job') ∨ ∃ i e, (job i).prog = .fail e) := by
  obtain ⟨m, last, hl, i, e, h1⟩ := h.execution (start ps) ⟨fun i => ⟨rfl, rfl⟩, ⟨0, fun i => rfl⟩, fun i i' k c c' h => by simp [start] at h⟩
  obtain ⟨d, k', l', e1, e2, _⟩ := confluent hj hl
  have hd : (d i).prog = .fail e := by rw [e2.ended (.inr ⟨e, h1⟩), h1]
  refine ⟨fun hall => ?_, ?_⟩
  · have := e1.ended (i := i) (.inl (hall i))
    rw [this, hall i] at hd
    cases hd
  · cases e1 with
    | zero => exact .inr ⟨i, e, hd⟩
    | succ h _ => exact .inl ⟨_, h⟩

end Job
end Teufel
