import Verif.Model.Parallel
import Mathlib.Data.List.Nodup

/-! # Executions of parallel loops -/

namespace Teufel

/-- access functions of a shared memory -/
structure Store (S κ τ : Type) where
  get : S → κ → Except Err τ
  put : S → κ → τ → S
  shape : S → List Nat
  get_put : ∀ s k v w, get s k = .ok w → get (put s k v) k = .ok v
  get_other : ∀ s k k' v, k' ≠ k → get (put s k v) k' = get s k'
  shape_put : ∀ s k v, shape (put s k v) = shape s
  ext : ∀ s s', shape s = shape s' → (∀ k, get s k = get s' k) → s = s'

/-- the parts of the work of one cell in an execution -/
def parts {κ τ} [DecidableEq κ] (k : κ) : Event κ τ → Option (τ → Except Err τ)
  | .count => none
  | .cell k' f => if k' = k then some f else none

def isCount {κ τ} : Event κ τ → Bool
  | .count => true
  | .cell _ _ => false

/-- parts executed one after the other -/
def inOrder {τ} (fs : List (τ → Except Err τ)) (v : τ) : Except Err τ := fs.foldlM (fun (v : τ) (f : τ → Except Err τ) => f v) v

theorem inOrder_nil {τ} (v : τ) : inOrder [] v = .ok v := rfl
theorem inOrder_cons {τ} (f : τ → Except Err τ) (fs) (v : τ) : inOrder (f :: fs) v = (f v).bind (inOrder fs) := rfl

variable {S κ τ : Type} [DecidableEq κ] (st : Store S κ τ)

theorem run_ok (evs : List (Event κ τ)) (s : S) (n : Nat) (r : S × Nat) (h : evs.foldlM (execEvent st.get st.put) (s, n) = .ok r) :
    st.shape r.1 = st.shape s ∧ r.2 = n + evs.countP isCount ∧
    (∀ k v, st.get s k = .ok v → ∃ v', inOrder (evs.filterMap (parts k)) v = .ok v' ∧ st.get r.1 k = .ok v') ∧
    (∀ k e, st.get s k = .error e → st.get r.1 k = .error e) := by
  induction evs generalizing s n with
  | nil =>
    simp only [List.foldlM_nil, pure, Except.pure] at h
    injection h with h
    subst h
    exact ⟨rfl, by simp, fun k v hv => ⟨v, rfl, hv⟩, fun k e he => he⟩
  | cons ev evs ih =>
    rw [List.foldlM_cons] at h
    cases ev with
    | count =>
      obtain ⟨h1, h2, h3, h4⟩ := ih s (n + 1) h
      refine ⟨h1, ?_, ?_, h4⟩
      · rw [h2, List.countP_cons_of_pos (by rfl)]; omega
      · intro k v hv
        rw [List.filterMap_cons_none (by rfl)]
        exact h3 k v hv
    | cell k f =>
      simp only [execEvent, bind, Except.bind, pure, Except.pure] at h
      cases hg : st.get s k with
      | error e => rw [hg] at h; cases h
      | ok v =>
        rw [hg] at h
        cases hf : f v with
        | error e => simp only [hf] at h; cases h
        | ok v' =>
          simp only [hf] at h
          obtain ⟨h1, h2, h3, h4⟩ := ih (st.put s k v') n h
          refine ⟨h1.trans (st.shape_put s k v'), ?_, ?_, ?_⟩
          · rw [h2, List.countP_cons_of_neg (by simp [isCount])]
          · intro k' w hw
            by_cases hk : k = k'
            · subst hk
              rw [hg] at hw
              injection hw with hw
              subst hw
              obtain ⟨v'', a, b⟩ := h3 k v' (st.get_put s k v' v hg)
              refine ⟨v'', ?_, b⟩
              rw [List.filterMap_cons_some (b := f) (by simp [parts]), inOrder_cons, hf]
              exact a
            · rw [List.filterMap_cons_none (by simp [parts, hk])]
              exact h3 k' w (by rw [st.get_other _ _ _ _ (Ne.symm hk)]; exact hw)
          · intro k' e he
            have hk : k' ≠ k := by
              rintro rfl
              rw [hg] at he
              cases he
            exact h4 k' e (by rw [st.get_other _ _ _ _ hk]; exact he)

theorem run_progress (evs : List (Event κ τ)) (s : S) (n : Nat) (hk : ∀ k f, Event.cell k f ∈ evs → ∃ v, st.get s k = .ok v)
    (hf : ∀ k v, st.get s k = .ok v → ∃ v', inOrder (evs.filterMap (parts k)) v = .ok v') :
    ∃ r, evs.foldlM (execEvent st.get st.put) (s, n) = .ok r := by
  induction evs generalizing s n with
  | nil => exact ⟨_, rfl⟩
  | cons ev evs ih =>
    rw [List.foldlM_cons]
    cases ev with
    | count =>
      refine ih s (n + 1) (fun k f h => hk k f (List.mem_cons_of_mem _ h)) ?_
      intro k v hv
      have := hf k v hv
      rwa [List.filterMap_cons_none (by rfl)] at this
    | cell k f =>
      obtain ⟨v, hv⟩ := hk k f (by simp)
      obtain ⟨v', hv'⟩ := hf k v hv
      rw [List.filterMap_cons_some (b := f) (by simp [parts]), inOrder_cons] at hv'
      cases hfv : f v with
      | error e => rw [hfv] at hv'; cases hv'
      | ok w =>
        rw [hfv] at hv'
        simp only [execEvent, bind, Except.bind, pure, Except.pure, hv, hfv]
        refine ih (st.put s k w) n ?_ ?_
        · intro k' f' h
          by_cases hkk : k' = k
          · subst hkk; exact ⟨w, st.get_put _ _ _ _ hv⟩
          · rw [st.get_other _ _ _ _ hkk]; exact hk k' f' (List.mem_cons_of_mem _ h)
        · intro k' u hu
          by_cases hkk : k' = k
          · subst hkk
            rw [st.get_put _ _ _ _ hv] at hu
            injection hu with hu
            subst hu
            exact ⟨v', hv'⟩
          · rw [st.get_other _ _ _ _ hkk] at hu
            have := hf k' u hu
            rwa [List.filterMap_cons_none (by simp [parts, Ne.symm hkk])] at this

/-- executions in which every cell gets the same work agree -/
theorem run_agree (evs evs' : List (Event κ τ)) (s : S) (n n' : Nat)
    (hk : ∀ k f, Event.cell k f ∈ evs → ∃ v, st.get s k = .ok v) (hk' : ∀ k f, Event.cell k f ∈ evs' → ∃ v, st.get s k = .ok v)
    (h : ∀ k v, inOrder (evs.filterMap (parts k)) v = inOrder (evs'.filterMap (parts k)) v) :
    match evs.foldlM (execEvent st.get st.put) (s, n), evs'.foldlM (execEvent st.get st.put) (s, n') with
    | .ok r, .ok r' => r.1 = r'.1
    | .error _, .error _ => True
    | _, _ => False := by
  cases hr : evs.foldlM (execEvent st.get st.put) (s, n) with
  | ok r =>
    obtain ⟨h1, _, h3, h4⟩ := run_ok st evs s n r hr
    obtain ⟨r', hr'⟩ := run_progress st evs' s n' hk' (by
      intro k v hv
      obtain ⟨v', a, _⟩ := h3 k v hv
      exact ⟨v', by rw [← h]; exact a⟩)
    rw [hr']
    obtain ⟨g1, _, g3, g4⟩ := run_ok st evs' s n' r' hr'
    refine st.ext _ _ (h1.trans g1.symm) ?_
    intro k
    cases hs : st.get s k with
    | error e => rw [h4 k e hs, g4 k e hs]
    | ok v =>
      obtain ⟨v', a, b⟩ := h3 k v hs
      obtain ⟨v'', a', b'⟩ := g3 k v hs
      rw [h, a'] at a
      injection a with a
      rw [b, b', a]
  | error e =>
    cases hr' : evs'.foldlM (execEvent st.get st.put) (s, n') with
    | error e' => trivial
    | ok r' =>
      obtain ⟨_, _, g3, _⟩ := run_ok st evs' s n' r' hr'
      obtain ⟨r, hr''⟩ := run_progress st evs s n hk (by
        intro k v hv
        obtain ⟨v', a, _⟩ := g3 k v hv
        exact ⟨v', by rw [h]; exact a⟩)
      rw [hr] at hr''
      cases hr''

/-- what an interleaving leaves of the steps selected by `φ`, when only list `j` has such steps -/
theorem interleave_proj {α β : Type} (φ : α → Option β) {ls : List (List α)} {evs : List α} (h : Interleave ls evs) (j : Nat)
    (hj : ∀ i l, i ≠ j → ls[i]? = some l → l.filterMap φ = []) : evs.filterMap φ = ((ls[j]?).getD []).filterMap φ := by
  induction h with
  | @done ls h =>
    cases hl : ls[j]? with
    | none => rfl
    | some l => rw [h l (List.mem_of_getElem? hl)]; rfl
  | @step ls i a rest evs h h' ih =>
    have hi : i < ls.length := (List.getElem?_eq_some_iff.mp h).1
    have key : ∀ i' l, i' ≠ j → (ls.set i rest)[i']? = some l → l.filterMap φ = [] := by
      intro i' l hi' hl
      rw [List.getElem?_set] at hl
      split at hl
      · rename_i heq
        subst heq
        injection hl with hl
        subst hl
        have := hj i (a :: rest) hi' h
        cases hφ : φ a with
        | none => rwa [List.filterMap_cons_none hφ] at this
        | some b => rw [List.filterMap_cons_some hφ] at this; cases this
      · exact hj i' l hi' hl
    have := ih key
    by_cases hij : i = j
    · subst hij
      rw [h]
      rw [List.getElem?_set, if_pos rfl, if_pos hi] at this
      simp only [Option.getD_some] at this ⊢
      cases hφ : φ a with
      | none => rw [List.filterMap_cons_none hφ, List.filterMap_cons_none hφ, this]
      | some b => rw [List.filterMap_cons_some hφ, List.filterMap_cons_some hφ, this]
    · rw [List.getElem?_set, if_neg hij] at this
      have hn := hj i (a :: rest) hij h
      cases hφ : φ a with
      | none => rw [List.filterMap_cons_none hφ, this]
      | some b => rw [List.filterMap_cons_some hφ] at hn; cases hn

theorem interleave_perm {α : Type} {ls : List (List α)} {evs : List α} (h : Interleave ls evs) : evs.Perm ls.flatten := by
  induction h with
  | @done ls h =>
    have : ls.flatten = [] := by rw [List.flatten_eq_nil_iff]; exact h
    rw [this]
  | @step ls i a rest evs h h' ih =>
    have hi : i < ls.length := (List.getElem?_eq_some_iff.mp h).1
    have e1 : ls = ls.take i ++ (a :: rest) :: ls.drop (i + 1) := by
      have h2 := (List.getElem?_eq_some_iff.mp h).2
      conv_lhs => rw [← List.take_append_drop i ls, List.drop_eq_getElem_cons hi, h2]
    have e2 : ls.set i rest = ls.take i ++ rest :: ls.drop (i + 1) := by
      rw [List.set_eq_take_append_cons_drop, if_pos hi]
    rw [e2] at ih
    rw [e1]
    simp only [List.flatten_append, List.flatten_cons] at ih ⊢
    refine (List.Perm.cons a ih).trans ?_
    rw [List.cons_append]
    exact (List.perm_middle).symm

/-- every schedule of iterations working on distinct cells agrees with the sequential loop -/
theorem schedule_agree (ks : List κ) (hnd : ks.Nodup) (work : κ → List (τ → Except Err τ)) (task : κ → τ → Except Err τ)
    (hw : ∀ k ∈ ks, ∀ v, inOrder (work k) v = task k v) (s : S) (hpres : ∀ k ∈ ks, ∃ v, st.get s k = .ok v)
    (pre : κ → List (Event κ τ)) (hpre : ∀ k, ∀ ev ∈ pre k, ev = .count)
    (evs : List (Event κ τ)) (h : Interleave (ks.map (fun k => pre k ++ (work k).map (Event.cell k))) evs) (n : Nat) :
    match evs.foldlM (execEvent st.get st.put) (s, n), ks.foldlM (fun (s : S) (k : κ) => do
        let v ← st.get s k
        let v ← task k v
        return st.put s k v) s with
    | .ok r, .ok s' => r.1 = s' ∧ r.2 = n + ((ks.map (fun k => (pre k).length)).sum)
    | .error _, .error _ => True
    | _, _ => False := by
  have hpn : ∀ k k', (pre k).filterMap (parts (τ := τ) k') = [] := by
    intro k k'
    rw [List.filterMap_eq_nil_iff]
    intro ev hev
    rw [hpre k ev hev]
    rfl
  have hseq : ∀ (l : List κ) (s : S) (m : Nat), (l.map (fun k => Event.cell k (task k))).foldlM (execEvent st.get st.put) (s, m)
      = (l.foldlM (fun (s : S) (k : κ) => do
        let v ← st.get s k
        let v ← task k v
        return st.put s k v) s).map (fun s => (s, m)) := by
    intro l
    induction l with
    | nil => intro s m; rfl
    | cons k l ih =>
      intro s m
      rw [List.map_cons, List.foldlM_cons, List.foldlM_cons]
      simp only [execEvent, bind, Except.bind, pure, Except.pure]
      cases st.get s k with
      | error e => rfl
      | ok v =>
        simp only
        cases task k v with
        | error e => rfl
        | ok v' => exact ih _ _
  have hperm := interleave_perm h
  have hmem : ∀ k f, Event.cell k f ∈ evs → k ∈ ks := by
    intro k f hm
    have := hperm.mem_iff.mp hm
    rw [List.mem_flatten] at this
    obtain ⟨l, hl, hm⟩ := this
    rw [List.mem_map] at hl
    obtain ⟨k', hk', rfl⟩ := hl
    rw [List.mem_append] at hm
    rcases hm with hm | hm
    · have := hpre k' _ hm; cases this
    · rw [List.mem_map] at hm
      obtain ⟨f', _, hf'⟩ := hm
      cases hf'
      exact hk'
  have hfm : ∀ (k k' : κ) (fs : List (τ → Except Err τ)), (fs.map (Event.cell k)).filterMap (parts k') = if k = k' then fs else [] := by
    intro k k' fs
    rw [List.filterMap_map]
    split
    · rename_i hkk
      subst hkk
      have : (parts k ∘ Event.cell k) = (some : (τ → Except Err τ) → Option _) := by funext f; simp [parts]
      rw [this, List.filterMap_some]
    · rename_i hkk
      rw [List.filterMap_eq_nil_iff]
      intro f _
      simp [parts, hkk]
  have hproj : ∀ k, evs.filterMap (parts k) = if k ∈ ks then work k else [] := by
    intro k
    split
    · rename_i hk
      obtain ⟨j, hj⟩ := List.getElem?_of_mem hk
      rw [interleave_proj (parts k) h j]
      · rw [List.getElem?_map, hj]
        simp only [Option.map_some, Option.getD_some, List.filterMap_append, hpn, hfm, if_true, List.nil_append]
      · intro i l hij hl
        rw [List.getElem?_map] at hl
        cases hki : ks[i]? with
        | none => rw [hki] at hl; cases hl
        | some k' =>
          rw [hki] at hl
          simp only [Option.map_some, Option.some.injEq] at hl
          subst hl
          rw [List.filterMap_append, hpn, hfm, if_neg, List.nil_append]
          rintro rfl
          have := (List.getElem?_inj (List.getElem?_eq_some_iff.mp hki).1 hnd).mp (hki.trans hj.symm)
          exact hij this
    · rename_i hk
      rw [List.filterMap_eq_nil_iff]
      intro ev hev
      cases ev with
      | count => rfl
      | cell k' f =>
        have := hmem k' f hev
        have hne : k' ≠ k := by rintro rfl; exact hk this
        simp [parts, hne]
  have hproj' : ∀ k, (ks.map (fun k => Event.cell k (task k))).filterMap (parts k) = if k ∈ ks then [task k] else [] := by
    intro k
    clear hproj hmem hperm h hpres hw
    induction ks with
    | nil => simp
    | cons a ks ih =>
      rw [List.nodup_cons] at hnd
      rw [List.map_cons]
      by_cases hak : a = k
      · subst hak
        rw [List.filterMap_cons_some (b := task a) (by simp [parts]), ih hnd.2, if_neg hnd.1, if_pos (by simp)]
      · rw [List.filterMap_cons_none (by simp [parts, hak]), ih hnd.2]
        simp [Ne.symm hak]
  have hag := run_agree st evs (ks.map (fun k => Event.cell k (task k))) s n 0 (fun k f hm => hpres k (hmem k f hm))
    (by
      intro k f hm
      rw [List.mem_map] at hm
      obtain ⟨k', hk', he⟩ := hm
      cases he
      exact hpres _ hk')
    (by
      intro k v
      rw [hproj, hproj']
      split
      · rename_i hk
        rw [hw k hk v, inOrder_cons]
        cases task k v <;> rfl
      · rfl)
  rw [hseq] at hag
  have hcount : evs.countP isCount = ((ks.map (fun k => (pre k).length)).sum) := by
    rw [hperm.countP_eq, List.countP_flatten, List.map_map]
    congr 1
    apply List.map_congr_left
    intro k _
    simp only [Function.comp_apply, List.countP_append]
    have e1 : List.countP isCount (pre k) = (pre k).length := by
      rw [List.countP_eq_length]
      intro ev hev
      rw [hpre k ev hev]
      rfl
    have e2 : List.countP isCount ((work k).map (Event.cell k)) = 0 := by
      rw [List.countP_eq_zero]
      intro ev hev
      rw [List.mem_map] at hev
      obtain ⟨f, _, rfl⟩ := hev
      simp [isCount]
    omega
  cases hr : evs.foldlM (execEvent st.get st.put) (s, n) with
  | error e =>
    rw [hr] at hag
    generalize ks.foldlM (fun (s : S) (k : κ) => do
        let v ← st.get s k
        let v ← task k v
        return st.put s k v) s = x at hag ⊢
    cases x with
    | error e' => trivial
    | ok s' => exact hag
  | ok r =>
    rw [hr] at hag
    have hc := (run_ok st evs s n r hr).2.1
    generalize ks.foldlM (fun (s : S) (k : κ) => do
        let v ← st.get s k
        let v ← task k v
        return st.put s k v) s = x at hag ⊢
    cases x with
    | error e' => exact hag
    | ok s' => exact ⟨hag, by rw [hc, hcount]⟩

/-- a vector as shared memory -/
def vecStore (α : Type) : Store (List α) Nat α where
  get := MeshObs.at'
  put := List.set
  shape l := [l.length]
  get_put := by
    intro s k v w h
    unfold MeshObs.at' at h ⊢
    cases hs : s[k]? with
    | none => rw [hs] at h; cases h
    | some x =>
      have := (List.getElem?_eq_some_iff.mp hs).1
      rw [List.getElem?_set, if_pos rfl, if_pos this]
  get_other := by
    intro s k k' v hk
    unfold MeshObs.at'
    rw [List.getElem?_set, if_neg (Ne.symm hk)]
  shape_put := by intro s k v; simp
  ext := by
    intro s s' hl h
    apply List.ext_getElem?
    intro i
    have := h i
    unfold MeshObs.at' at this
    cases h1 : s[i]? <;> cases h2 : s'[i]? <;> rw [h1, h2] at this <;> simp_all

/-- a vector of vectors as shared memory -/
def gridStore (α : Type) : Store (List (List α)) (Nat × Nat) α where
  get g c := gridAt g c.1 c.2
  put g c := gridSet g c.1 c.2
  shape g := g.map List.length
  get_put := by
    rintro g ⟨i, j⟩ v w h
    simp only at h ⊢
    unfold gridAt at h
    cases hr : g[i]? with
    | none => rw [hr] at h; cases h
    | some row =>
      rw [hr] at h
      simp only at h
      cases hx : row[j]? with
      | none => rw [hx] at h; cases h
      | some x =>
        have h1 := (List.getElem?_eq_some_iff.mp hr).1
        have h2 := (List.getElem?_eq_some_iff.mp hx).1
        unfold gridSet gridAt
        rw [hr]
        simp only [List.getElem?_set, if_true, h1, h2]
  get_other := by
    rintro g ⟨i, j⟩ ⟨i', j'⟩ v hk
    simp only
    unfold gridSet
    cases hr : g[i]? with
    | none => rfl
    | some row =>
      have h1 := (List.getElem?_eq_some_iff.mp hr).1
      simp only
      unfold gridAt
      by_cases hi : i = i'
      · subst hi
        have hj : j ≠ j' := by rintro rfl; exact hk rfl
        rw [List.getElem?_set, if_pos rfl, if_pos h1, hr]
        simp only
        rw [List.getElem?_set, if_neg hj]
      · rw [List.getElem?_set, if_neg hi]
  shape_put := by
    rintro g ⟨i, j⟩ v
    simp only
    unfold gridSet
    cases hr : g[i]? with
    | none => rfl
    | some row =>
      simp only
      rw [List.map_set, List.length_set]
      apply List.ext_getElem?
      intro k
      rw [List.getElem?_set]
      split
      · rename_i hk
        subst hk
        rw [List.length_map, if_pos (List.getElem?_eq_some_iff.mp hr).1, List.getElem?_map, hr]
        rfl
      · rfl
  ext := by
    intro g g' hs h
    apply List.ext_getElem?
    intro i
    have hi := congrArg (fun l => l[i]?) hs
    simp only [List.getElem?_map] at hi
    cases h1 : g[i]? with
    | none =>
      rw [h1] at hi
      cases h2 : g'[i]? with
      | none => rfl
      | some r => rw [h2] at hi; cases hi
    | some r =>
      rw [h1] at hi
      cases h2 : g'[i]? with
      | none => rw [h2] at hi; cases hi
      | some r' =>
        rw [h2] at hi
        simp only [Option.map_some, Option.some.injEq] at hi
        congr 1
        apply List.ext_getElem?
        intro j
        have := h (i, j)
        unfold gridAt at this
        rw [h1, h2] at this
        simp only at this
        cases h3 : r[j]? <;> cases h4 : r'[j]? <;> rw [h3, h4] at this <;> simp_all

end Teufel
