import Verif.Props.Propagation

/-! # C77: the programs `propagate` and `reflection` as a whole -/

namespace Teufel

open Vec Mesh

namespace Propagate

/-- the two input files and the output file -/
def FileNames (argv : List String) (source target out : String) : Prop :=
  argv[1]? = some source ∧ argv[2]? = some target ∧ argv[3]? = some out

theorem arguments_of {argv : List String} {a b c : String} (h : FileNames argv a b c) (reflected : Bool) :
    arguments (if reflected then reflectionMinimum else propagateMinimum) argv = .ok (some (a, b, c)) := by
  obtain ⟨h1, h2, h3⟩ := h
  have hl : 3 < argv.length := (List.getElem?_eq_some_iff.mp h3).1
  unfold arguments
  rw [if_neg (by cases reflected <;> simp [reflectionMinimum, propagateMinimum] <;> omega), vecAt_ok.mpr h1, vecAt_ok.mpr h2, vecAt_ok.mpr h3]
  rfl

theorem arguments_names {argv : List String} {reflected : Bool} {a b c : String}
    (h : arguments (if reflected then reflectionMinimum else propagateMinimum) argv = .ok (some (a, b, c))) : FileNames argv a b c := by
  generalize (if reflected then reflectionMinimum else propagateMinimum) = mini at h
  unfold arguments at h
  by_cases hl : argv.length < mini
  · rw [if_pos hl] at h; cases h
  · rw [if_neg hl] at h
    simp only [bind, Except.bind, pure, Except.pure] at h
    cases h1 : Particle.vecAt argv 1 with
    | error e => rw [h1] at h; cases h
    | ok a' =>
    rw [h1] at h
    cases h2 : Particle.vecAt argv 2 with
    | error e => rw [h2] at h; cases h
    | ok b' =>
    rw [h2] at h
    cases h3 : Particle.vecAt argv 3 with
    | error e => rw [h3] at h; cases h
    | ok c' =>
    rw [h3] at h
    simp only [Except.ok.injEq, Option.some.injEq, Prod.mk.injEq] at h
    obtain ⟨rfl, rfl, rfl⟩ := h
    exact ⟨vecAt_ok.mp h1, vecAt_ok.mp h2, vecAt_ok.mp h3⟩

/-- the source as far as it depends on the source file -/
noncomputable def sourceOf (reflected : Bool) (solve : Solver) (sf : MeshFile) : Except Err Source := do
  let m ← Mesh.ofFile sf
  let g ← m.init
  let m ← if reflected then reflect g m else pure m
  prepare solve m g

/-- the output file as far as it depends on the target file -/
noncomputable def resultOf (s : Source) (tf : MeshFile) : Except Err MeshFile := do
  let t ← Mesh.ofFile tf
  let _ ← t.init
  let t ← propagateTo s t.zero
  t.writeFile

theorem main_eq (reflected : Bool) (solve : Solver) {argv : List String} {a b c : String} (h : FileNames argv a b c) (read : String → Except Err MeshFile) :
    main reflected solve argv read = (do
      let sf ← read a
      let s ← sourceOf reflected solve sf
      let tf ← read b
      let f ← resultOf s tf
      return some (c, f)) := by
  unfold main sourceOf resultOf
  rw [arguments_of h]
  cases reflected <;>
  · simp only [bind, Except.bind, pure, Except.pure, if_true, Bool.false_eq_true, if_false]
    cases read a with
    | error e => rfl
    | ok sf =>
    simp only
    cases Mesh.ofFile sf with
    | error e => rfl
    | ok m =>
    simp only
    cases m.init with
    | error e => rfl
    | ok g =>
    simp only
    first
    | cases reflect g m with
      | error e => rfl
      | ok m1 =>
      simp only
      cases prepare solve m1 g with
      | error e => rfl
      | ok s =>
      simp only
      cases read b with
      | error e => rfl
      | ok tf =>
      simp only
      cases Mesh.ofFile tf with
      | error e => rfl
      | ok t =>
      simp only
      cases t.init with
      | error e => rfl
      | ok gt =>
      simp only
      cases propagateTo s t.zero with
      | error e => rfl
      | ok r => rfl
    | cases prepare solve m g with
      | error e => rfl
      | ok s =>
      simp only
      cases read b with
      | error e => rfl
      | ok tf =>
      simp only
      cases Mesh.ofFile tf with
      | error e => rfl
      | ok t =>
      simp only
      cases t.init with
      | error e => rfl
      | ok gt =>
      simp only
      cases propagateTo s t.zero with
      | error e => rfl
      | ok r => rfl

theorem main_inv {reflected : Bool} {solve : Solver} {argv : List String} {read : String → Except Err MeshFile} {out : String} {f : MeshFile}
    (h : main reflected solve argv read = .ok (some (out, f))) :
    ∃ a b sf tf s, FileNames argv a b out ∧ read a = .ok sf ∧ sourceOf reflected solve sf = .ok s ∧ read b = .ok tf ∧ resultOf s tf = .ok f := by
  cases ha : arguments (if reflected then reflectionMinimum else propagateMinimum) argv with
  | error e => unfold main at h; rw [ha] at h; cases h
  | ok args =>
  cases args with
  | none => unfold main at h; rw [ha] at h; cases h
  | some abc =>
  obtain ⟨a, b, c⟩ := abc
  have hn := arguments_names ha
  rw [main_eq reflected solve hn] at h
  simp only [bind, Except.bind, pure, Except.pure] at h
  cases h1 : read a with
  | error e => rw [h1] at h; cases h
  | ok sf =>
  rw [h1] at h
  simp only at h
  cases h2 : sourceOf reflected solve sf with
  | error e => rw [h2] at h; cases h
  | ok s =>
  rw [h2] at h
  simp only at h
  cases h3 : read b with
  | error e => rw [h3] at h; cases h
  | ok tf =>
  rw [h3] at h
  simp only at h
  cases h4 : resultOf s tf with
  | error e => rw [h4] at h; cases h
  | ok f' =>
  rw [h4] at h
  simp only [Except.ok.injEq, Option.some.injEq, Prod.mk.injEq] at h
  obtain ⟨rfl, rfl⟩ := h
  exact ⟨a, b, sf, tf, s, hn, h1, h2, h3, h4⟩

/-! ### the sampling of the target is kept -/

/-- same timing -/
def SameTiming (a b : FieldTrace) : Prop := a.t0 = b.t0 ∧ a.dt = b.dt ∧ a.N = b.N ∧ a.WF

theorem addAssign_len (s o : FieldTrace) : (s.addAssign o).1.t0 = s.t0 ∧ (s.addAssign o).1.dt = s.dt ∧ (s.addAssign o).1.N = s.N ∧
    (s.addAssign o).1.trace.length = s.trace.length := by
  unfold FieldTrace.addAssign
  cases FieldTrace.guardMatch s o with
  | error e => exact ⟨rfl, rfl, rfl, rfl⟩
  | ok u =>
    refine ⟨rfl, rfl, rfl, ?_⟩
    dsimp only
    suffices H : ∀ (l : List Nat) (tr : List EMField), (l.foldl (fun (tr : List EMField) i => tr.set i ((tr[i]?).getD 0 + (o.trace[i]?).getD 0)) tr).length = tr.length from H _ _
    intro l
    induction l with
    | nil => intro tr; rfl
    | cons i l ih => intro tr; rw [List.foldl_cons, ih, List.length_set]

theorem addTerm_timing {src : FieldTrace} {delay : ℝ} {k : Except Err ℝ} {dA : ℝ} {s r : FieldTrace × FieldTrace} {T : FieldTrace}
    (h : addTerm src delay k dA s = .ok r) (h1 : SameTiming s.1 T) : SameTiming r.1 T := by
  unfold addTerm at h
  split at h
  · injection h with h; subst h; exact h1
  · simp only [bind, Except.bind, pure, Except.pure] at h
    cases k with
    | error e => cases h
    | ok k =>
    simp only at h
    rename_i component _
    have hl := addAssign_len s.1 ((component.smul k).smul dA)
    split at h
    · rename_i r' heq
      rw [heq] at hl
      injection h with h
      subst h
      obtain ⟨a1, a2, a3, a4⟩ := h1
      refine ⟨hl.1.trans a1, hl.2.1.trans a2, hl.2.2.1.trans a3, ?_⟩
      unfold FieldTrace.WF at *
      rw [hl.2.2.2, hl.2.2.1]; exact a4
    · cases h

theorem addCell_timing {s : Source} {X : Vec} {acc r : FieldTrace × FieldTrace} {i : Nat} {T : FieldTrace}
    (h : addCell s X acc i = .ok r) (h1 : SameTiming acc.1 T) : SameTiming r.1 T := by
  unfold addCell at h
  simp only [bind, Except.bind] at h
  split at h
  · cases h
  split at h
  · cases h
  split at h
  · cases h
  split at h
  · cases h
  split at h
  · cases h
  split at h
  · cases h
  rename_i a1 ha1
  split at h
  · cases h
  split at h
  · cases h
  rename_i a2 ha2
  split at h
  · cases h
  exact addTerm_timing h (addTerm_timing ha2 (addTerm_timing ha1 h1))

theorem propagated_timing {s : Source} {t : Mesh} {index : Nat} {r T : FieldTrace} (hT : t.A[index]? = some T) (hw : T.WF)
    (h : propagatedTrace s t index = .ok r) : SameTiming r T := by
  unfold propagatedTrace at h
  simp only [bind, Except.bind, pure, Except.pure] at h
  split at h
  · cases h
  unfold Mesh.getTrace at h
  rw [vecAt_ok.mpr hT] at h
  simp only at h
  split at h
  · cases h
  rename_i p hp
  injection h with h
  subst h
  have h0 : SameTiming T.zero T := by
    refine ⟨rfl, rfl, rfl, ?_⟩
    unfold FieldTrace.WF at *
    simp [FieldTrace.zero, hw]
  have key : ∀ (X : Vec) (l : List Nat) (a p : FieldTrace × FieldTrace), SameTiming a.1 T → l.foldlM (addCell s X) a = .ok p → SameTiming p.1 T := by
    intro X l
    induction l with
    | nil => intro a p ha hp; simp only [List.foldlM_nil, pure, Except.pure, Except.ok.injEq] at hp; subst hp; exact ha
    | cons i l ih =>
      intro a p ha hp
      rw [List.foldlM_cons] at hp
      simp only [bind, Except.bind] at hp
      split at hp
      · cases hp
      · rename_i a' ha'
        exact ih a' p (addCell_timing ha' ha) hp
  exact key _ _ _ _ h0 hp

/-- the target screen after the propagation has the geometry and timing it had before -/
theorem propagateTo_keeps {s : Source} {t r : Mesh} (hm : t.WellSampled) (h : propagateTo s t = .ok r) :
    r.Ncp = t.Ncp ∧ r.Np = t.Np ∧ r.Nt = t.Nt ∧ r.dt = t.dt ∧ r.corners = t.corners ∧ r.triangles = t.triangles ∧ r.points = t.points ∧
      r.WellSampled ∧ r.A.map (fun tr => tr.t0) = t.A.map (fun tr => tr.t0) := by
  unfold propagateTo at h
  have key : ∀ (l : List Nat) (a p : Mesh), (a = { t with A := a.A } ∧ a.WellSampled ∧ a.A.map (fun tr => tr.t0) = t.A.map (fun tr => tr.t0)) →
      l.foldlM (fun (m : Mesh) (index : Nat) => do
        let tr ← propagatedTrace s m index
        m.setTrace index tr) a = .ok p → (p = { t with A := p.A } ∧ p.WellSampled ∧ p.A.map (fun tr => tr.t0) = t.A.map (fun tr => tr.t0)) := by
    intro l
    induction l with
    | nil => intro a p ha hp; simp only [List.foldlM_nil, pure, Except.pure, Except.ok.injEq] at hp; subst hp; exact ha
    | cons i l ih =>
      intro a p ha hp
      rw [List.foldlM_cons] at hp
      simp only [bind, Except.bind] at hp
      cases h1 : propagatedTrace s a i with
      | error e => rw [h1] at hp; cases hp
      | ok tr =>
      rw [h1] at hp
      simp only at hp
      cases h2 : a.setTrace i tr with
      | error e => rw [h2] at hp; cases hp
      | ok a' =>
      rw [h2] at hp
      simp only at hp
      refine ih a' p ?_ hp
      obtain ⟨e, ⟨w1, w2, w3, w4, w5⟩, e0⟩ := ha
      unfold Mesh.setTrace at h2
      simp only [bind, Except.bind, pure, Except.pure] at h2
      cases hT : Particle.vecAt a.A i with
      | error e => rw [hT] at h2; cases h2
      | ok T =>
      rw [hT] at h2
      simp only at h2
      have hT' := vecAt_ok.mp hT
      obtain ⟨v1, v2, v3⟩ := w5 T (List.mem_of_getElem? hT')
      obtain ⟨u1, u2, u3, u4⟩ := propagated_timing hT' v1 h1
      unfold FieldTrace.assign at h2
      rw [if_neg (by rw [u3]; simp)] at h2
      simp only [Except.ok.injEq] at h2
      subst h2
      refine ⟨?_, ⟨w1, w2, w3, by simpa using w4, ?_⟩, ?_⟩
      · rw [e]
      · intro tr' htr'
        rcases List.mem_or_eq_of_mem_set htr' with hx | hx
        · exact w5 tr' hx
        · subst hx
          refine ⟨?_, v2, u2.trans v3⟩
          unfold FieldTrace.WF at *
          dsimp only
          rw [u4, u3]
      · rw [← e0]
        apply List.ext_getElem?
        intro j
        rw [List.getElem?_map, List.getElem?_map, List.getElem?_set]
        by_cases hj : i = j
        · subst hj
          rw [if_pos rfl, if_pos (List.getElem?_eq_some_iff.mp hT').1, hT']
          simp [u1]
        · rw [if_neg hj]
  obtain ⟨k1, k2, k3⟩ := key _ _ _ ⟨rfl, hm, rfl⟩ h
  refine ⟨by rw [k1], by rw [k1], by rw [k1], by rw [k1], by rw [k1], by rw [k1], by rw [k1], k2, k3⟩

theorem zero_wellSampled {t : Mesh} (h : t.WellSampled) : t.zero.WellSampled := by
  obtain ⟨w1, w2, w3, w4, w5⟩ := h
  refine ⟨w1, w2, w3, by simpa [Mesh.zero] using w4, ?_⟩
  intro tr htr
  obtain ⟨tr', h', rfl⟩ := List.mem_map.mp htr
  obtain ⟨a1, a2, a3⟩ := w5 tr' h'
  refine ⟨?_, a2, a3⟩
  unfold FieldTrace.WF at *
  simp [FieldTrace.zero, a1]

theorem zero_t0 (t : Mesh) : t.zero.A.map (fun tr => tr.t0) = t.A.map (fun tr => tr.t0) := by
  simp only [Mesh.zero, List.map_map]
  rfl

theorem writeFile_inv {m : Mesh} {f : MeshFile} (h : m.writeFile = .ok f) : m.Np * m.Nt * 6 < 2 ^ 31 := by
  unfold Mesh.writeFile at h
  simp only [bind, Except.bind, pure, Except.pure] at h
  split at h
  · cases h
  split at h
  · cases h
  split at h
  · cases h
  split at h
  · cases h
  split at h
  · cases h
  · rename_i hh; omega

/-- **C77 (files).** If one of the programs writes a file, it has been given three file names and the file written is the third.
The file describes a screen that has the corner points, triangles, observation points and times of the second file; only the
fields differ. -/
theorem C77_files {reflected : Bool} {solve : Solver} {argv : List String} {read : String → Except Err MeshFile} {out : String} {f : MeshFile}
    (h : main reflected solve argv read = .ok (some (out, f))) :
    ∃ (a b : String) (tf : MeshFile) (t r : Mesh), FileNames argv a b out ∧ read b = .ok tf ∧ Mesh.ofFile tf = .ok t ∧ Mesh.ofFile f = .ok r ∧
      r.Ncp = t.Ncp ∧ r.Np = t.Np ∧ r.Nt = t.Nt ∧ r.dt = t.dt ∧ r.corners = t.corners ∧ r.triangles = t.triangles ∧ r.points = t.points ∧
      r.A.map (fun tr => tr.t0) = t.A.map (fun tr => tr.t0) := by
  obtain ⟨a, b, sf, tf, s, h1, h2, h3, h4, h5⟩ := main_inv h
  unfold resultOf at h5
  simp only [bind, Except.bind] at h5
  cases ht : Mesh.ofFile tf with
  | error e => rw [ht] at h5; cases h5
  | ok t =>
  rw [ht] at h5
  simp only at h5
  split at h5
  · cases h5
  cases hp : propagateTo s t.zero with
  | error e => rw [hp] at h5; cases h5
  | ok r =>
  rw [hp] at h5
  simp only at h5
  have hw := (C73_created tf t ht).1
  obtain ⟨k1, k2, k3, k4, k5, k6, k7, k8, k9⟩ := propagateTo_keeps (zero_wellSampled hw) hp
  obtain ⟨f', g1, g2⟩ := C73_round_trip r k8 (writeFile_inv h5)
  rw [h5] at g1
  injection g1 with g1
  subst g1
  exact ⟨a, b, tf, t, r, h1, h4, ht, g2, k1, k2, k3, k4, k5, k6, k7, k9.trans (zero_t0 t)⟩

/-- **C77 (only the two files).** What happens depends on no other file than the two input files: the output file may exist or
not, may be damaged or be the result of an earlier run. -/
theorem C77_inputs (reflected : Bool) (solve : Solver) {argv : List String} {a b c : String} (hn : FileNames argv a b c)
    (read read' : String → Except Err MeshFile) (ha : read a = read' a) (hb : read b = read' b) :
    main reflected solve argv read = main reflected solve argv read' := by
  rw [main_eq reflected solve hn, main_eq reflected solve hn, ha]
  simp only [hb]

theorem readFields_zero {Np Nt : Nat} {dt : ℝ} {A0 A : List FieldTrace} {fd : Option (List EMField)}
    (h0 : ∀ tr ∈ A0, tr.WF ∧ tr.N = Nt ∧ tr.dt = dt) (h : readFields Np Nt A0 fd = .ok A) : A.map FieldTrace.zero = A0.map FieldTrace.zero := by
  unfold readFields at h
  cases fd with
  | none => injection h with h; rw [h]
  | some data =>
    simp only [bind, Except.bind] at h
    split at h
    · cases h
    · cases hbuf : readInto (0 : EMField) (Np * Nt) data with
      | error e => rw [hbuf] at h; cases h
      | ok buf =>
      rw [hbuf] at h
      dsimp only at h
      have hl := (mapM_except_length h).1
      rw [List.length_zipIdx] at hl
      apply List.ext_getElem?
      intro i
      rw [List.getElem?_map, List.getElem?_map]
      cases hs : A0[i]? with
      | none => rw [List.getElem?_eq_none (by rw [hl]; exact List.getElem?_eq_none_iff.mp hs)]
      | some s =>
        obtain ⟨r, hr, hr'⟩ := mapM_get h i (s, i) (by rw [List.getElem?_zipIdx, hs]; simp)
        have hs0 := h0 s (List.mem_of_getElem? hs)
        dsimp only at hr
        rw [← hs0.2.1] at hr
        obtain ⟨hb, rfl⟩ := SourceScreen.setBuffer_ok hs0.1 hr
        rw [hr']
        have hw := hs0.1
        unfold FieldTrace.WF at hw
        simp only [Option.map_some, Option.some.injEq, FieldTrace.zero]
        congr 2
        rw [List.drop_eq_nil_of_le (by simp), List.drop_eq_nil_of_le (by omega)]

/-- the screen created from a file, once its fields are set to zero, does not depend on the fields in the file -/
theorem ofFile_zero {tf : MeshFile} {fd : Option (List EMField)} {t t' : Mesh} (h : Mesh.ofFile tf = .ok t) (h' : Mesh.ofFile { tf with field := fd } = .ok t') :
    t.zero = t'.zero := by
  unfold Mesh.ofFile at h h'
  simp only [bind, Except.bind, pure, Except.pure] at h h'
  split at h
  · cases h
  rename_i _ _ hNcp
  split at h
  · cases h
  rename_i _ _ hcor
  split at h
  · cases h
  rename_i _ _ hNp
  split at h
  · cases h
  rename_i _ _ hpts
  split at h
  · cases h
  rename_i _ _ htri
  split at h
  · cases h
  rename_i _ _ hraw
  split at h
  · cases h
  rename_i _ tm htm
  split at h
  · cases h
  rename_i _ A hA
  rw [hNcp] at h'
  simp only at h'
  rw [hcor] at h'
  simp only at h'
  rw [hNp] at h'
  simp only at h'
  rw [hpts] at h'
  simp only at h'
  rw [htri] at h'
  simp only at h'
  rw [hraw] at h'
  simp only at h'
  rw [htm] at h'
  simp only at h'
  split at h'
  · cases h'
  rename_i _ A' hA'
  injection h with h
  injection h' with h'
  subst h h'
  obtain ⟨Nt, dt, A0⟩ := tm
  have h0 : ∀ tr ∈ A0, tr.WF ∧ tr.N = Nt ∧ tr.dt = dt := by
    unfold readTiming at htm
    split at htm
    · simp only [Except.ok.injEq, Prod.mk.injEq] at htm
      obtain ⟨rfl, rfl, rfl⟩ := htm
      intro tr htr
      obtain rfl := List.eq_of_mem_replicate htr
      exact ⟨new_WF _ _ _, rfl, rfl⟩
    · simp only [bind, Except.bind, pure, Except.pure] at htm
      split at htm
      · cases htm
      split at htm
      · cases htm
      split at htm
      · cases htm
      simp only [Except.ok.injEq, Prod.mk.injEq] at htm
      obtain ⟨rfl, rfl, rfl⟩ := htm
      intro tr htr
      obtain ⟨t0, -, rfl⟩ := List.mem_map.mp htr
      exact ⟨new_WF _ _ _, rfl, rfl⟩
  simp only [Mesh.zero, Mesh.mk.injEq, true_and]
  rw [readFields_zero h0 hA, readFields_zero h0 hA']

theorem resultOf_field (s : Source) {tf : MeshFile} {fd : Option (List EMField)} {t t' : Mesh} (h : Mesh.ofFile tf = .ok t)
    (h' : Mesh.ofFile { tf with field := fd } = .ok t') : resultOf s tf = resultOf s { tf with field := fd } := by
  have hz := ofFile_zero h h'
  have hi : t.init = t'.init := by
    have e1 : t.init = t.zero.init := rfl
    have e2 : t'.init = t'.zero.init := rfl
    rw [e1, e2, hz]
  unfold resultOf
  rw [h, h']
  simp only [bind, Except.bind]
  rw [hi, hz]

/-- **C77 (fields of the target file).** The result does not depend on fields stored in the target file, so the output of one run
can be used as the target of the next one. -/
theorem C77_target_fields (reflected : Bool) (solve : Solver) {argv : List String} {a b c : String} (hn : FileNames argv a b c)
    (read read' : String → Except Err MeshFile) (ha : read a = read' a) {tf : MeshFile} {fd : Option (List EMField)} (hb : read b = .ok tf)
    (hb' : read' b = .ok { tf with field := fd }) {t t' : Mesh} (h : Mesh.ofFile tf = .ok t) (h' : Mesh.ofFile { tf with field := fd } = .ok t') :
    main reflected solve argv read = main reflected solve argv read' := by
  rw [main_eq reflected solve hn, main_eq reflected solve hn, ha, hb, hb']
  cases read' a with
  | error e => rfl
  | ok sf =>
  simp only [bind, Except.bind]
  cases sourceOf reflected solve sf with
  | error e => rfl
  | ok s =>
  simp only
  rw [resultOf_field s h h']

/-- the fields on the source screen that are propagated: those of the file, or for `reflection` what remains of them with the
electric fields tangential to the surface and the magnetic fields normal to it reversed -/
def Emitted (reflected : Bool) (m : Mesh) (g : MeshGeometry) (F : Nat → FieldTrace) : Prop :=
  ∀ i < m.Np, ∃ (tr : FieldTrace) (n : Vec), m.A[i]? = some tr ∧ g.normal[i]? = some (.ok n) ∧
    F i = if reflected then { tr with trace := tr.trace.map (fun f => ⟨n * (2 * dot f.E n) - f.E, f.B - n * (2 * dot f.B n)⟩) } else tr

theorem reflectField_eq (n : Vec) (f : EMField) : reflectField n f = ⟨n * (2 * dot f.E n) - f.E, f.B - n * (2 * dot f.B n)⟩ := by
  unfold reflectField
  ext <;> simp <;> ring

/-- C77: For a source file with proper cells and three file names, the programs write for every cell of the
target the sum of Kirchhoff's integrand over all cells of the source.  `P`, `a`, `n` are position, area and normal of the source
cells, `F` the fields emitted there, `Ft`, `Fn` their derivatives with respect to time and along the normal (C18 and C53 say
what these are).  Traces the energy flow of which vanishes over the time of the
target trace are left out (`carried`). -/
theorem C77_result_exactly (reflected : Bool) (solve : Solver) {argv : List String} {source target out : String} (hn : FileNames argv source target out)
    (read : String → Except Err MeshFile) {sf tf : MeshFile} (hsf : read source = .ok sf) (htf : read target = .ok tf)
    {m t : Mesh} {g gt : MeshGeometry} (hm : Mesh.ofFile sf = .ok m) (ht : Mesh.ofFile tf = .ok t) (hg : m.init = .ok g) (hgt : t.init = .ok gt)
    (hdt : m.dt ≠ 0) (P n : Nat → Vec) (a : Nat → ℝ) (F Ft Fn : Nat → FieldTrace) (hF : Emitted reflected m g F)
    (hP : ∀ i < m.Np, m.points[i]? = some (P i)) (hnn : ∀ i < m.Np, g.normal[i]? = some (.ok (n i)) ∧ dot (n i) (n i) = 1) (ha : ∀ i < m.Np, g.area[i]? = some (a i))
    (hFt : ∀ i < m.Np, (F i).derivative = .ok (Ft i))
    (hFn : ∀ i < m.Np, normalTrace solve { m with A := (List.range m.Np).map F } g ((List.range m.Np).map Ft) i = .ok (Fn i))
    (hne : ∀ i < m.Np, ∀ X ∈ t.points, X ≠ P i) (hsize : t.Np * t.Nt * 6 < 2 ^ 31) :
    ∃ f r, main reflected solve argv read = .ok (some (out, f)) ∧ Mesh.ofFile f = .ok r ∧
      ∀ (k : Nat) (X : Vec) (t0 : ℝ), t.points[k]? = some X → (t.A.map (fun tr => tr.t0))[k]? = some t0 →
        ∃ T', r.A[k]? = some T' ∧ T'.t0 = t0 ∧ T'.dt = t.dt ∧ T'.N = t.Nt ∧
          ∀ it < t.Nt, T'.trace[it]? = some (kirchhoffSample m.Np X P n a (fun i => carried (F i) ((X - P i).norm / SpeedOfLight) ⟨t0, t.dt, t.Nt, []⟩) (fun i => carried (Ft i) ((X - P i).norm / SpeedOfLight) ⟨t0, t.dt, t.Nt, []⟩) (fun i => carried (Fn i) ((X - P i).norm / SpeedOfLight) ⟨t0, t.dt, t.Nt, []⟩)
            (t0 + (it : ℝ) * t.dt)) := by
  have hw := (C73_created sf m hm).1
  have hwt := (C73_created tf t ht).1
  obtain ⟨m1, m2, m3, m4, m5⟩ := hw
  -- the emitted fields
  have hA : (if reflected then reflect g m else pure m) = (.ok { m with A := (List.range m.Np).map F } : Except Err Mesh) := by
    cases reflected with
    | false =>
      simp only [Bool.false_eq_true, if_false, pure, Except.pure, Except.ok.injEq]
      have : (List.range m.Np).map F = m.A := by
        apply List.ext_getElem?
        intro i
        rw [List.getElem?_map]
        by_cases hi : i < m.Np
        · obtain ⟨tr, n', h1, h2, h3⟩ := hF i hi
          rw [List.getElem?_range hi, h1, Option.map_some, h3]; rfl
        · rw [List.getElem?_eq_none (by simpa using hi), List.getElem?_eq_none (by omega)]; rfl
      rw [this]
    | true =>
      simp only [if_true]
      rw [reflect_of m ⟨m1, m2, m3, m4, m5⟩ g n (fun i hi => (hnn i hi).1) (fun i hi => (hnn i hi).2)]
      congr 2
      apply List.ext_getElem?
      intro i
      rw [List.getElem?_mapIdx, List.getElem?_map]
      by_cases hi : i < m.Np
      · obtain ⟨tr, n', h1, h2, h3⟩ := hF i hi
        rw [(hnn i hi).1] at h2
        injection h2 with h2
        injection h2 with h2
        subst h2
        rw [List.getElem?_range hi, h1, Option.map_some, Option.map_some, h3]
        simp only [if_true]
        congr 2
        exact List.map_congr_left (fun f _ => reflectField_eq _ f)
      · rw [List.getElem?_eq_none (by omega), List.getElem?_eq_none (by simpa using hi)]; rfl
  set m' : Mesh := { m with A := (List.range m.Np).map F } with hm'
  have hprep : prepare solve m' g = .ok ⟨m', g, (List.range m.Np).map Ft, (List.range m.Np).map Fn⟩ := by
    unfold prepare
    have e1 : (List.range m'.Np).mapM (fun i : Nat => m'.getTrace i) = .ok ((List.range m.Np).map F) := by
      apply mapM_ok_map
      intro i hi
      have hi := List.mem_range.mp hi
      unfold Mesh.getTrace
      apply vecAt_ok.mpr
      rw [hm']
      dsimp only
      rw [List.getElem?_map, List.getElem?_range hi]; rfl
    have e2 : ((List.range m.Np).map F).mapM FieldTrace.derivative = .ok ((List.range m.Np).map Ft) := by
      rw [mapM_map', mapM_ok_map _ _ Ft]
      intro i hi
      exact hFt i (List.mem_range.mp hi)
    have e3 : (List.range m'.Np).mapM (normalTrace solve m' g ((List.range m.Np).map Ft)) = .ok ((List.range m.Np).map Fn) := by
      apply mapM_ok_map
      intro i hi
      exact hFn i (List.mem_range.mp hi)
    rw [e1]
    simp only [bind, Except.bind, pure, Except.pure]
    rw [if_neg (by intro hh; exact hdt hh.1), e2]
    simp only
    rw [e3]
  have hsrc : sourceOf reflected solve sf = .ok ⟨m', g, (List.range m.Np).map Ft, (List.range m.Np).map Fn⟩ := by
    unfold sourceOf
    rw [hm]
    simp only [bind, Except.bind]
    rw [hg]
    cases reflected with
    | false =>
      simp only [Bool.false_eq_true, if_false] at hA ⊢
      rw [hA]; exact hprep
    | true =>
      simp only [if_true] at hA ⊢
      rw [hA]; exact hprep
  -- the propagation
  have hcell : ∀ i < m.Np, CellData ⟨m', g, (List.range m.Np).map Ft, (List.range m.Np).map Fn⟩ P n a F Ft Fn i := by
    intro i hi
    refine ⟨hP i hi, (hnn i hi).1, ha i hi, ?_, ?_, ?_⟩ <;>
    · simp only [hm', List.getElem?_map]
      rw [List.getElem?_range hi]; rfl
  have hz0 : ∀ (k : Nat) (T : FieldTrace), t.zero.A[k]? = some T → (t.A.map (fun tr => tr.t0))[k]? = some T.t0 ∧ T.dt = t.dt ∧ T.N = t.Nt := by
    intro k T hT
    obtain ⟨_, w2, w3⟩ := (zero_wellSampled hwt).2.2.2.2 T (List.mem_of_getElem? hT)
    refine ⟨?_, w3, w2⟩
    rw [← zero_t0 t, List.getElem?_map, hT]; rfl
  obtain ⟨r, r1, r2, r3, r4⟩ := C54_screen_exactly ⟨m', g, (List.range m.Np).map Ft, (List.range m.Np).map Fn⟩ t.zero (zero_wellSampled hwt) P n a F Ft Fn hcell hne
  have hrs : r.Np = t.Np ∧ r.Nt = t.Nt ∧ r.dt = t.dt := by rw [r2]; exact ⟨rfl, rfl, rfl⟩
  obtain ⟨f, f1, f2⟩ := C73_round_trip r r3 (by rw [hrs.1, hrs.2.1]; exact hsize)
  refine ⟨f, r, ?_, f2, ?_⟩
  · rw [main_eq reflected solve hn, hsf]
    simp only [bind, Except.bind, pure, Except.pure]
    rw [hsrc]
    simp only
    rw [htf]
    simp only
    unfold resultOf
    rw [ht]
    simp only [bind, Except.bind]
    rw [hgt]
    simp only
    rw [r1]
    simp only
    rw [f1]
  · intro k X t0 hX ht0
    have hk : k < t.zero.A.length := by
      have := (List.getElem?_eq_some_iff.mp ht0).1
      simpa [Mesh.zero] using this
    have hT := List.getElem?_eq_getElem hk
    obtain ⟨q1, q2, q3⟩ := hz0 k _ hT
    rw [ht0] at q1
    injection q1 with q1
    obtain ⟨T', T1, T2, T3⟩ := r4 k X _ hX hT
    obtain ⟨_, w2, w3⟩ := r3.2.2.2.2 T' (List.mem_of_getElem? T1)
    refine ⟨T', T1, by rw [T2, ← q1], by rw [w3, hrs.2.2], by rw [w2, hrs.2.1], ?_⟩
    intro it hit
    have hcar : ∀ (src : FieldTrace) (d : ℝ), carried src d (t.zero.A[k]) = carried src d ⟨t0, t.dt, t.Nt, []⟩ := by
      intro src d
      unfold carried
      rw [q1, q2, q3]
    rw [T3 it hit, ← q1]
    simp only [hcar, q1]
    rfl

/-- **C77 (result, partial).** For a source file with proper cells and three file names, the programs write for every cell of the
target the sum of Kirchhoff's integrand over all cells of the source.  `P`, `a`, `n` are position, area and normal of the source
cells, `F` the fields emitted there, `Ft`, `Fn` their derivatives with respect to time and along the normal (C18 and C53 say
what these are).  Missing: contributions the energy flow of which vanishes, see C54. -/
theorem C77_result_partial (reflected : Bool) (solve : Solver) {argv : List String} {source target out : String} (hn : FileNames argv source target out)
    (read : String → Except Err MeshFile) {sf tf : MeshFile} (hsf : read source = .ok sf) (htf : read target = .ok tf)
    {m t : Mesh} {g gt : MeshGeometry} (hm : Mesh.ofFile sf = .ok m) (ht : Mesh.ofFile tf = .ok t) (hg : m.init = .ok g) (hgt : t.init = .ok gt)
    (hdt : m.dt ≠ 0) (P n : Nat → Vec) (a : Nat → ℝ) (F Ft Fn : Nat → FieldTrace) (hF : Emitted reflected m g F)
    (hP : ∀ i < m.Np, m.points[i]? = some (P i)) (hnn : ∀ i < m.Np, g.normal[i]? = some (.ok (n i)) ∧ dot (n i) (n i) = 1) (ha : ∀ i < m.Np, g.area[i]? = some (a i))
    (hFt : ∀ i < m.Np, (F i).derivative = .ok (Ft i))
    (hFn : ∀ i < m.Np, normalTrace solve { m with A := (List.range m.Np).map F } g ((List.range m.Np).map Ft) i = .ok (Fn i))
    (hne : ∀ i < m.Np, ∀ X ∈ t.points, X ≠ P i) (hsize : t.Np * t.Nt * 6 < 2 ^ 31)
    (hv : ∀ i < m.Np, ∀ (k : Nat) (X : Vec) (t0 : ℝ), t.points[k]? = some X → (t.A.map (fun tr => tr.t0))[k]? = some t0 →
      ∀ T : FieldTrace, T.t0 = t0 → T.dt = t.dt → T.N = t.Nt →
      Visible (F i) ((X - P i).norm / SpeedOfLight) T ∧ Visible (Ft i) ((X - P i).norm / SpeedOfLight) T ∧ Visible (Fn i) ((X - P i).norm / SpeedOfLight) T) :
    ∃ f r, main reflected solve argv read = .ok (some (out, f)) ∧ Mesh.ofFile f = .ok r ∧
      ∀ (k : Nat) (X : Vec) (t0 : ℝ), t.points[k]? = some X → (t.A.map (fun tr => tr.t0))[k]? = some t0 →
        ∃ T', r.A[k]? = some T' ∧ T'.t0 = t0 ∧ T'.dt = t.dt ∧ T'.N = t.Nt ∧
          ∀ it < t.Nt, T'.trace[it]? = some (kirchhoffSample m.Np X P n a F Ft Fn (t0 + (it : ℝ) * t.dt)) := by
  obtain ⟨f, r, h1, h2, h3⟩ := C77_result_exactly reflected solve hn read hsf htf hm ht hg hgt hdt P n a F Ft Fn hF hP hnn ha hFt hFn hne hsize
  refine ⟨f, r, h1, h2, fun k X t0 hX ht0 => ?_⟩
  obtain ⟨T', e1, e2, e3, e4, e5⟩ := h3 k X t0 hX ht0
  refine ⟨T', e1, e2, e3, e4, fun it hit => ?_⟩
  rw [e5 it hit]
  exact congrArg some (kirchhoff_visible (T := ⟨t0, t.dt, t.Nt, []⟩) (fun i hi => hv i hi k X t0 hX ht0 _ rfl rfl rfl) hit)

/-- the hypotheses of C77 are met: a cell with a constant field that carries energy and a target cell in front of it -/
example : ∃ (solve : Solver) (read : String → Except Err MeshFile) (f : MeshFile) (r : Mesh) (T : FieldTrace),
    main false solve ["propagate", "a", "b", "c"] read = .ok (some ("c", f)) ∧ Mesh.ofFile f = .ok r ∧ r.A[0]? = some T ∧ T.trace[0]? ≠ some 0 := by
  let F0 : EMField := ⟨⟨1, 0, 0⟩, ⟨0, 1, 0⟩⟩
  obtain ⟨g, s, h1, h2, h3, h4, h5, h6, h7, h8, h9⟩ := Electric.source F0
  have hw : (Electric.meshOf F0).WellSampled := ⟨rfl, rfl, rfl, rfl, by intro tr htr; simp [Electric.meshOf] at htr; subst htr; exact ⟨rfl, rfl, rfl⟩⟩
  have hwt : Electric.target.WellSampled := ⟨rfl, rfl, rfl, rfl, by intro tr htr; simp [Electric.target] at htr; subst htr; exact ⟨rfl, rfl, rfl⟩⟩
  obtain ⟨sf, s1, s2⟩ := C73_round_trip _ hw (by simp [Electric.meshOf])
  obtain ⟨tf, t1, t2⟩ := C73_round_trip _ hwt (by simp [Electric.target])
  have hvt : Electric.target.Valid := by
    intro ip hip
    have : ip = 0 := by simp [Electric.target] at hip; exact hip
    subst this
    exact ⟨_, _, _, ⟨0, 1, 2⟩, rfl, by decide, by decide, by decide, rfl, rfl, rfl⟩
  obtain ⟨gt, hgt, -⟩ := C56_geometry _ hvt
  have one : ∀ i < (Electric.meshOf F0).Np, i = 0 := by intro i hi; simp [Electric.meshOf] at hi; exact hi
  have hnorm : Vec.norm ((⟨0, 0, 1⟩ : Vec) - 0) = 1 := by rw [sub_zero]; exact norm_one_of (by simp [dot])
  have hF : (⟨0, 1, 2, [F0, F0]⟩ : FieldTrace).fieldAtTime 0 = F0 := C17_sampling_times _ (by norm_num) 0 _ 0 rfl (by simp [FieldTrace.getTime])
  have hZ : Electric.zeros.fieldAtTime 0 = 0 := C17_sampling_times _ (by norm_num [Electric.zeros]) 0 _ 0 rfl (by simp [FieldTrace.getTime, Electric.zeros])
  have ht0 : (1 / SpeedOfLight + ((0 : Nat) : ℝ) * 1 - 1 / SpeedOfLight : ℝ) = 0 := by simp
  obtain ⟨f, r, f1, f2, f3⟩ := C77_result_partial false Electric.solve (argv := ["propagate", "a", "b", "c"]) ⟨rfl, rfl, rfl⟩
    (fun n => if n = "a" then .ok sf else .ok tf) (by simp) (by simp) s2 t2 h1 hgt (by simp [Electric.meshOf])
    (fun _ => 0) (fun _ => ⟨0, 0, 1⟩) (fun _ => 1 / 2) (fun _ => ⟨0, 1, 2, [F0, F0]⟩) (fun _ => Electric.zeros) (fun _ => Electric.zeros)
    (by intro i hi; obtain rfl := one i hi; exact ⟨_, _, rfl, h5, rfl⟩)
    (by intro i hi; obtain rfl := one i hi; rfl)
    (by intro i hi; obtain rfl := one i hi; exact ⟨h5, by simp [dot]⟩)
    (by intro i hi; obtain rfl := one i hi; exact h6)
    (fun i _ => Electric.derivative_const F0)
    (by intro i hi; obtain rfl := one i hi; exact h9)
    (by intro i _ X hX
        simp [Electric.target] at hX
        subst hX
        exact ne_zero_of (by simp [dot]))
    (by simp [Electric.target])
    (by intro i _ k X t0 hX ht T e1 e2 e3
        have hk : k = 0 := by
          have := (List.getElem?_eq_some_iff.mp hX).1
          simpa [Electric.target] using this
        subst hk
        simp [Electric.target] at hX ht e2 e3
        subst hX ht
        have hz : Visible Electric.zeros ((⟨0, 0, 1⟩ - 0 : Vec).norm / SpeedOfLight) T := by
          left
          intro i hi
          have : i = 0 := by omega
          subst this
          rw [hnorm, e1, e2, ← one_div, ht0, hZ]
        refine ⟨?_, hz, hz⟩
        right
        rw [e3]
        simp only [List.range_succ, List.range_zero, List.nil_append, List.map_cons, List.map_nil, List.sum_cons, List.sum_nil]
        rw [hnorm, e1, e2, ← one_div, ht0, hF]
        intro h
        have := congrArg Vec.z h
        simp [EMField.Poynting, F0] at this
        exact MuNull_pos.ne' this)
  obtain ⟨T, T1, -, -, -, T2⟩ := f3 0 ⟨0, 0, 1⟩ (1 / SpeedOfLight) rfl rfl
  refine ⟨_, _, f, r, T, f1, f2, T1, ?_⟩
  rw [T2 0 (by simp [Electric.target])]
  intro hk
  have e : (1 / SpeedOfLight + ((0 : Nat) : ℝ) * Electric.target.dt - 1 / SpeedOfLight : ℝ) = 0 := by simp
  have hNp : (Electric.meshOf F0).Np = 1 := rfl
  rw [hNp] at hk
  unfold kirchhoffSample at hk
  simp only [List.range_succ, List.range_zero, List.nil_append, List.map_cons, List.map_nil, List.sum_cons, List.sum_nil, hnorm] at hk
  rw [e, hF, hZ, kirchhoff_eq _ _ _ _ _ _ (ne_zero_of (by simp [dot])), hnorm] at hk
  have hz := congrArg (fun f : EMField => f.E.x) (Option.some.inj hk)
  have hpi : (Pi : ℝ) ≠ 0 := Pi_pos.ne'
  simp [F0, dot, hpi] at hz

/-- C77: the full statement is false: a purely electric field of the source does not reach the result. -/
theorem C77_full_statement_false :
    ¬ ∀ (reflected : Bool) (solve : Solver) (argv : List String) (source target out : String), FileNames argv source target out →
      ∀ (read : String → Except Err MeshFile) (sf tf f : MeshFile) (m t r : Mesh) (g gt : MeshGeometry), read source = .ok sf → read target = .ok tf →
      Mesh.ofFile sf = .ok m → Mesh.ofFile tf = .ok t → m.init = .ok g → t.init = .ok gt → m.dt ≠ 0 →
      ∀ (P n : Nat → Vec) (a : Nat → ℝ) (F Ft Fn : Nat → FieldTrace), Emitted reflected m g F →
      (∀ i < m.Np, m.points[i]? = some (P i)) → (∀ i < m.Np, g.normal[i]? = some (.ok (n i)) ∧ dot (n i) (n i) = 1) → (∀ i < m.Np, g.area[i]? = some (a i)) →
      (∀ i < m.Np, (F i).derivative = .ok (Ft i)) →
      (∀ i < m.Np, normalTrace solve { m with A := (List.range m.Np).map F } g ((List.range m.Np).map Ft) i = .ok (Fn i)) →
      (∀ i < m.Np, ∀ X ∈ t.points, X ≠ P i) → t.Np * t.Nt * 6 < 2 ^ 31 →
      main reflected solve argv read = .ok (some (out, f)) → Mesh.ofFile f = .ok r →
      ∀ (k : Nat) (X : Vec) (t0 : ℝ) (T' : FieldTrace), t.points[k]? = some X → (t.A.map (fun tr => tr.t0))[k]? = some t0 → r.A[k]? = some T' →
        ∀ it < t.Nt, T'.trace[it]? = some (kirchhoffSample m.Np X P n a F Ft Fn (t0 + (it : ℝ) * t.dt)) := by
  intro hall
  obtain ⟨g, s, h1, h2, h3, h4, h5, h6, h7, h8, h9⟩ := Electric.source Electric.field
  have hw : Electric.mesh.WellSampled := ⟨rfl, rfl, rfl, rfl, by intro tr htr; simp [Electric.meshOf] at htr; subst htr; exact ⟨rfl, rfl, rfl⟩⟩
  have hwt : Electric.target.WellSampled := ⟨rfl, rfl, rfl, rfl, by intro tr htr; simp [Electric.target] at htr; subst htr; exact ⟨rfl, rfl, rfl⟩⟩
  obtain ⟨sf, s1, s2⟩ := C73_round_trip _ hw (by simp [Electric.meshOf])
  obtain ⟨tf, t1, t2⟩ := C73_round_trip _ hwt (by simp [Electric.target])
  have hvt : Electric.target.Valid := by
    intro ip hip
    have : ip = 0 := by simp [Electric.target] at hip; exact hip
    subst this
    exact ⟨_, _, _, ⟨0, 1, 2⟩, rfl, by decide, by decide, by decide, rfl, rfl, rfl⟩
  obtain ⟨gt, hgt, -⟩ := C56_geometry _ hvt
  have one : ∀ i < Electric.mesh.Np, i = 0 := by intro i hi; simp [Electric.meshOf] at hi; exact hi
  have hnorm : Vec.norm ((⟨0, 0, 1⟩ : Vec) - 0) = 1 := by rw [sub_zero]; exact norm_one_of (by simp [dot])
  have hF : (⟨0, 1, 2, [Electric.field, Electric.field]⟩ : FieldTrace).fieldAtTime 0 = Electric.field := C17_sampling_times _ (by norm_num) 0 _ 0 rfl (by simp [FieldTrace.getTime])
  have hZ : Electric.zeros.fieldAtTime 0 = 0 := C17_sampling_times _ (by norm_num [Electric.zeros]) 0 _ 0 rfl (by simp [FieldTrace.getTime, Electric.zeros])
  have ht0 : (1 / SpeedOfLight + ((0 : Nat) : ℝ) * 1 - 1 / SpeedOfLight : ℝ) = 0 := by simp
  obtain ⟨rd, hsf, htf⟩ : ∃ rd : String → Except Err MeshFile, rd "a" = .ok sf ∧ rd "b" = .ok tf :=
    ⟨fun n => if n = "a" then .ok sf else .ok tf, by simp, by simp⟩
  have k1 : Emitted false Electric.mesh g (fun _ => ⟨0, 1, 2, [Electric.field, Electric.field]⟩) := by
    intro i hi; obtain rfl := one i hi; exact ⟨_, _, rfl, h5, rfl⟩
  have k2 : ∀ i < Electric.mesh.Np, Electric.mesh.points[i]? = some 0 := by intro i hi; obtain rfl := one i hi; rfl
  have k3 : ∀ i < Electric.mesh.Np, g.normal[i]? = some (.ok ⟨0, 0, 1⟩) ∧ dot (⟨0, 0, 1⟩ : Vec) ⟨0, 0, 1⟩ = 1 := by
    intro i hi; obtain rfl := one i hi; exact ⟨h5, by simp [dot]⟩
  have k4 : ∀ i < Electric.mesh.Np, g.area[i]? = some (1 / 2) := by intro i hi; obtain rfl := one i hi; exact h6
  have k5 : ∀ i < Electric.mesh.Np, normalTrace Electric.solve
      { Electric.mesh with A := (List.range Electric.mesh.Np).map (fun _ => ⟨0, 1, 2, [Electric.field, Electric.field]⟩) } g
      ((List.range Electric.mesh.Np).map (fun _ => Electric.zeros)) i = .ok Electric.zeros := by
    intro i hi; obtain rfl := one i hi; exact h9
  have k6 : ∀ i < Electric.mesh.Np, ∀ X ∈ Electric.target.points, X ≠ 0 := by
    intro i _ X hX
    simp [Electric.target] at hX
    subst hX
    exact ne_zero_of (by simp [dot])
  have k7 : Electric.target.Np * Electric.target.Nt * 6 < 2 ^ 31 := by simp [Electric.target]
  have fn : FileNames ["propagate", "a", "b", "c"] "a" "b" "c" := ⟨rfl, rfl, rfl⟩
  obtain ⟨f, r, f1, f2, f3⟩ := C77_result_exactly false Electric.solve fn rd hsf htf s2 t2 h1 hgt (by simp [Electric.meshOf])
    (fun _ => 0) (fun _ => ⟨0, 0, 1⟩) (fun _ => 1 / 2) (fun _ => ⟨0, 1, 2, [Electric.field, Electric.field]⟩) (fun _ => Electric.zeros) (fun _ => Electric.zeros)
    k1 k2 k3 k4 (fun i _ => Electric.derivative_const Electric.field) k5 k6 k7
  obtain ⟨T, T1, -, -, -, T2⟩ := f3 0 ⟨0, 0, 1⟩ (1 / SpeedOfLight) rfl rfl
  have hk := hall false Electric.solve _ _ _ _ fn rd sf tf f Electric.mesh Electric.target r g gt hsf htf s2 t2 h1 hgt (by simp [Electric.meshOf])
    (fun _ => 0) (fun _ => ⟨0, 0, 1⟩) (fun _ => 1 / 2) (fun _ => ⟨0, 1, 2, [Electric.field, Electric.field]⟩) (fun _ => Electric.zeros) (fun _ => Electric.zeros)
    k1 k2 k3 k4 (fun i _ => Electric.derivative_const Electric.field) k5 k6 k7 f1 f2 0 ⟨0, 0, 1⟩ (1 / SpeedOfLight) T rfl rfl T1 0 (by simp [Electric.target])
  rw [T2 0 (by simp [Electric.target])] at hk
  have e : (1 / SpeedOfLight + ((0 : Nat) : ℝ) * Electric.target.dt - 1 / SpeedOfLight : ℝ) = 0 := by simp
  have hNp : Electric.mesh.Np = 1 := rfl
  have hcar : ∀ src : FieldTrace, (src.fieldAtTime 0).B = 0 →
      (carried src (1 / SpeedOfLight) ⟨1 / SpeedOfLight, Electric.target.dt, Electric.target.Nt, []⟩).fieldAtTime 0 = 0 := by
    intro src hB
    unfold carried
    rw [if_pos, empty_fieldAtTime]
    have : Electric.target.Nt = 1 := rfl
    simp only [this, List.range_succ, List.range_zero, List.nil_append, List.map_cons, List.map_nil, List.sum_cons, List.sum_nil, e]
    unfold EMField.Poynting
    rw [hB]
    ext <;> simp
  rw [hNp] at hk
  unfold kirchhoffSample at hk
  simp only [List.range_succ, List.range_zero, List.nil_append, List.map_cons, List.map_nil, List.sum_cons, List.sum_nil, hnorm] at hk
  rw [e, hcar _ (by rw [hF]; rfl), hcar _ (by rw [hZ]; rfl), hF, hZ] at hk
  rw [kirchhoff_eq _ _ _ _ _ _ (ne_zero_of (by simp [dot])), kirchhoff_eq _ _ _ _ _ _ (ne_zero_of (by simp [dot])), hnorm] at hk
  have hz := congrArg (fun f : EMField => f.E.z) (Option.some.inj hk)
  have hpi : (Pi : ℝ) ≠ 0 := Pi_pos.ne'
  simp [Electric.field, dot, hpi] at hz

end Propagate
end Teufel
