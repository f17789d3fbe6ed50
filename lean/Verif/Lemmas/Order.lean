import Verif.Spec.Order
import Verif.Lemmas.Parts
import Verif.Props.Fields

/-! # Lemmas on the order of the elements of the lattice -/

namespace Teufel

/-- `g` has the values of `f` wherever `f` has one -/
def Extends (f g : FieldFn) : Prop := ∀ t X F, f t X = .ok F → g t X = .ok F

theorem lattice_perm {l l' : Lattice} (h : l.Perm l') : Extends (Lattice.field l) (Lattice.field l') := by
  intro t X F hF
  rw [← C22_order_independent l l' h t X ((C22_fails_iff l t X).mp ⟨F, hF⟩)]
  exact hF

theorem coupled_extends {l l' : Lattice} (h : Extends (Lattice.field l) (Lattice.field l')) (s : List FEL) : Extends (Coupled.field l s) (Coupled.field l' s) := by
  intro t X F hF
  unfold Coupled.field at hF ⊢
  cases hl : Lattice.field l t X with
  | error e => rw [hl] at hF; cases hF
  | ok G =>
    rw [hl] at hF
    rw [h t X G hl]
    exact hF

theorem mapM_extends {α β : Type} {f g : α → Except Err β} (h : ∀ x y, f x = .ok y → g x = .ok y) {l : List α} {r : List β} (hr : l.mapM f = .ok r) : l.mapM g = .ok r := by
  induction l generalizing r with
  | nil => exact hr
  | cons x l ih =>
    rw [List.mapM_cons] at hr ⊢
    cases hx : f x with
    | error e => rw [hx] at hr; cases hr
    | ok y =>
    cases hl : l.mapM f with
    | error e => rw [hx, hl] at hr; cases hr
    | ok ys =>
    rw [hx, hl] at hr
    rw [h x y hx, ih hl]
    exact hr

theorem init_extends {f g : FieldFn} (h : Extends f g) (dt : ℝ) (p q : Particle) (hq : dropState (p.InitVay dt f) = .ok q) : dropState (p.InitVay dt g) = .ok q := by
  have hq' := dropState_ok hq
  have : p.InitVay dt g = .ok q := by
    unfold Particle.InitVay at hq' ⊢
    split at hq'
    · cases hq'
    split at hq'
    · cases hq'
    rename_i h1 h2
    rw [if_neg h1, if_neg h2]
    split at hq'
    · next t x pm e1 e2 e3 =>
      simp only at hq' ⊢
      split at hq'
      · cases hq'
      · next EB hE =>
        rw [h _ _ _ hE]
        exact hq'
    · cases hq'
  rw [this]
  rfl

theorem step_extends {f g : FieldFn} (h : Extends f g) (p q : Particle) (hq : dropState (p.StepVay f) = .ok q) : dropState (p.StepVay g) = .ok q := by
  have hq' := dropState_ok hq
  have : p.StepVay g = .ok q := by
    unfold Particle.StepVay at hq' ⊢
    simp only at hq' ⊢
    split at hq'
    · cases hq'
    · next EB hE =>
      rw [h _ _ _ hE]
      exact hq'
  rw [this]
  rfl

theorem after_extends {l l' : Lattice} (h : Extends (Lattice.field l) (Lattice.field l')) {dt : ℝ} {ps : List Particle} {s : List FEL} {k : Nat} {r : List Particle × List FEL}
    (hr : Coupled.after l dt ps s k = .ok r) : Coupled.after l' dt ps s k = .ok r := by
  induction k generalizing r with
  | zero =>
    unfold Coupled.after at hr ⊢
    cases hq : ps.mapM (fun p : Particle => dropState ((p.initTrajectory p.tCur p.XCur p.PCur p.ACur).InitVay dt (Coupled.field l s))) with
    | error e => rw [hq] at hr; cases hr
    | ok qs =>
      rw [hq] at hr
      rw [mapM_extends (fun p q hpq => init_extends (coupled_extends h s) dt _ q hpq) hq]
      exact hr
  | succ k ih =>
    unfold Coupled.after at hr ⊢
    cases hb : Coupled.after l dt ps s k with
    | error e => rw [hb] at hr; cases hr
    | ok b =>
      rw [hb] at hr
      rw [ih hb]
      simp only [bind, Except.bind] at hr ⊢
      cases hq : b.1.mapM (fun p : Particle => dropState (p.StepVay (Coupled.field l b.2))) with
      | error e => rw [hq] at hr; cases hr
      | ok qs =>
        rw [hq] at hr
        rw [mapM_extends (fun p q hpq => step_extends (coupled_extends h b.2) p q hpq) hq]
        exact hr

namespace Lib
variable (L : Lib)

/-- an element without definitions leaves the definitions alone -/
theorem element_env {env : Env} {el : Xml} (h : ∀ c ∈ el.children, c.name ≠ "calc") {r : Env × GeneralField} (hr : L.latticeElement env el = .ok r) : r.1 = env := by
  have hself : ∀ env, L.parseCalcChildren env el = env := fun env => L.calcChildren_none env el h
  unfold latticeElement planarUndulator gradientUndulator hardEdgeDipole softEdgeDipole at hr
  simp only [hself, need, bind, Except.bind, pure, Except.pure] at hr
  have key : ∀ {x : Except Err GeneralField}, x.map (fun f => (env, f)) = .ok r → r.1 = env := by
    intro x hx
    cases x with
    | error e => cases hx
    | ok f => injection hx with hx; rw [← hx]
  repeat' split at hr
  all_goals first
    | exact key hr
    | (cases hr; done)
    | (injection hr with hr; rw [← hr])

theorem lattice_fold {env : Env} {l : List Xml} (h : ∀ e ∈ l, e.name ≠ "calc" ∧ ∀ c ∈ e.children, c.name ≠ "calc") {s r : LatticeState} (hs : s.env = env)
    (hr : l.foldlM L.latticeStep s = .ok r) : r.env = env ∧ ∃ els, l.mapM (fun e => (L.latticeElement env e).map Prod.snd) = .ok els ∧ r.lattice = s.lattice ++ els := by
  induction l generalizing s with
  | nil =>
    cases hr
    exact ⟨hs, [], rfl, by simp⟩
  | cons e l ih =>
    rw [List.foldlM_cons] at hr
    unfold latticeStep at hr
    rw [if_neg (h e (by simp)).1, hs] at hr
    cases he : L.latticeElement env e with
    | error x => rw [he] at hr; cases hr
    | ok p =>
      rw [he] at hr
      have hr' : l.foldlM L.latticeStep ⟨p.1, s.lattice.addElement p.2, s.count + 1⟩ = .ok r := hr
      obtain ⟨g1, els, g2, g3⟩ := ih (fun e he => h e (by simp [he])) (L.element_env (h e (by simp)).2 he) hr'
      refine ⟨g1, p.2 :: els, ?_, ?_⟩
      · rw [List.mapM_cons, he, g2]
        rfl
      · rw [g3]
        simp [Lattice.addElement]

theorem mapM_mem {α β : Type} {f : α → Except Err β} {l : List α} {r : List β} (hr : l.mapM f = .ok r) (x : α) (hx : x ∈ l) : ∃ y, f x = .ok y := by
  induction l generalizing r with
  | nil => cases hx
  | cons a l ih =>
    rw [List.mapM_cons] at hr
    cases ha : f a with
    | error e => rw [ha] at hr; cases hr
    | ok b =>
    cases hl : l.mapM f with
    | error e => rw [ha, hl] at hr; cases hr
    | ok bs =>
    rcases List.mem_cons.mp hx with rfl | hx
    · exact ⟨b, ha⟩
    · exact ih hl hx

theorem mapM_perm {α β : Type} {f : α → Except Err β} {l l' : List α} (h : l.Perm l') {r r' : List β} (hr : l.mapM f = .ok r) (hr' : l'.mapM f = .ok r') : r.Perm r' := by
  induction h generalizing r r' with
  | nil => cases hr; cases hr'; exact .refl _
  | cons x h ih =>
    rename_i l l'
    rw [List.mapM_cons] at hr hr'
    cases hx : f x with
    | error e => rw [hx] at hr; cases hr
    | ok y =>
    cases hl : l.mapM f with
    | error e => rw [hx, hl] at hr; cases hr
    | ok ys =>
    cases hl' : l'.mapM f with
    | error e => rw [hx, hl'] at hr'; cases hr'
    | ok ys' =>
    rw [hx, hl] at hr
    rw [hx, hl'] at hr'
    cases hr
    cases hr'
    exact (ih hl hl').cons _
  | swap x y l =>
    rw [List.mapM_cons, List.mapM_cons] at hr hr'
    cases hx : f x with
    | error e => rw [hx] at hr'; cases hr'
    | ok a =>
    cases hy : f y with
    | error e => rw [hy] at hr; cases hr
    | ok b =>
    cases hl : l.mapM f with
    | error e => rw [hx, hy, hl] at hr; cases hr
    | ok c =>
    rw [hx, hy, hl] at hr hr'
    cases hr
    cases hr'
    exact .swap _ _ _
  | trans h1 h2 ih1 ih2 =>
    rename_i l1 l2 l3
    have : ∃ r2, l2.mapM f = .ok r2 := by
      have hok : ∀ x ∈ l2, ∃ y, f x = .ok y := by
        intro x hx
        have hx1 := h1.mem_iff.mpr hx
        exact mapM_mem hr x hx1
      exact mapM_exists f l2 hok
    obtain ⟨r2, h2'⟩ := this
    exact (ih1 hr h2').trans (ih2 h2' hr')

/-- the same is read from both files, up to the order of the lattice -/
theorem parse_order {doc doc' : Xml} (h : OtherOrder doc doc') {p p' : Parsed} (hp : L.parse doc = .ok p) (hp' : L.parse doc' = .ok p') :
    p.lattice.lattice.Perm p'.lattice.lattice ∧ p'.beam = p.beam ∧ p'.tracking = p.tracking ∧ p'.observers = p.observers := by
  obtain ⟨root, root', before, after, attrs, attrs', l, l', d, d', c, c', hb, hperm, hpl⟩ := h
  have hother : ∀ (r : Xml) a l (hr : r.children = before ++ .node "lattice" a l :: after) n, n ≠ "lattice" → r.child n = (before ++ after).find? (fun c => c.name == n) := by
    intro r a l hr n hn
    have hne : (Xml.node "lattice" a l).name ≠ n := fun h => hn h.symm
    unfold Xml.child
    rw [hr, List.find?_append, List.find?_append, List.find?_cons]
    have : ((Xml.node "lattice" a l).name == n) = false := by simpa using hne
    rw [this]
  have hlat : ∀ (r : Xml) a l (hr : r.children = before ++ .node "lattice" a l :: after), r.child "lattice" = some (.node "lattice" a l) := by
    intro r a l hr
    unfold Xml.child
    rw [hr, List.find?_append]
    have : before.find? (fun c => c.name == "lattice") = none := by
      rw [List.find?_eq_none]
      intro x hx
      simpa using hb x hx
    rw [this]
    rfl
  have hstart : ∀ (r : Xml) a l (hr : r.children = before ++ .node "lattice" a l :: after), L.start r = (before ++ after).foldl (fun e c => if c.name = "calc" then L.parseCalc e c else e) Lib.predefined := by
    intro r a l hr
    unfold start parseCalcChildren
    rw [hr, List.foldl_append, List.foldl_append, List.foldl_cons, if_neg (by show "lattice" ≠ "calc"; decide)]
  have hs : L.start root' = L.start root := by rw [hstart _ _ _ c', hstart _ _ _ c]
  have hbe : ∀ e, L.parseBeam root' e = L.parseBeam root e := by intro e; unfold parseBeam; rw [hother _ _ _ c' _ (by decide), hother _ _ _ c _ (by decide)]
  have ht : ∀ e, L.parseTracking root' e = L.parseTracking root e := by intro e; unfold parseTracking; rw [hother _ _ _ c' _ (by decide), hother _ _ _ c _ (by decide)]
  have ho : ∀ e, L.parseObservers root' e = L.parseObservers root e := by intro e; unfold parseObservers; rw [hother _ _ _ c' _ (by decide), hother _ _ _ c _ (by decide)]
  unfold parse at hp hp'
  rw [d] at hp
  rw [d'] at hp'
  simp only [need, bind, Except.bind, pure, Except.pure, hs, hbe, ht, ho] at hp hp'
  cases ha : L.parseLattice root (L.start root) [] with
  | error e => rw [ha] at hp; cases hp
  | ok lat =>
  cases ha' : L.parseLattice root' (L.start root) [] with
  | error e => rw [ha'] at hp'; cases hp'
  | ok lat' =>
  rw [ha] at hp
  rw [ha'] at hp'
  unfold parseLattice at ha ha'
  rw [hlat _ _ _ c] at ha
  rw [hlat _ _ _ c'] at ha'
  simp only [need, bind, Except.bind, Xml.children] at ha ha'
  obtain ⟨e1, els, m1, m2⟩ := L.lattice_fold hpl rfl ha
  obtain ⟨e2, els', m3, m4⟩ := L.lattice_fold (fun e he => hpl e (hperm.mem_iff.mpr he)) rfl ha'
  have hP := mapM_perm hperm m1 m3
  simp only [e1, e2] at hp hp'
  cases hbm : L.parseBeam root (L.start root) with
  | error e => rw [hbm] at hp; cases hp
  | ok be =>
  rw [hbm] at hp hp'
  simp only at hp hp'
  cases htr : L.parseTracking root be.env with
  | error e => rw [htr] at hp; cases hp
  | ok tr =>
  rw [htr] at hp hp'
  simp only at hp hp'
  cases hob : L.parseObservers root tr.state.env with
  | error e => rw [hob] at hp; cases hp
  | ok ob =>
  rw [hob] at hp hp'
  simp only [Except.ok.injEq] at hp hp'
  subst hp hp'
  refine ⟨?_, rfl, rfl, rfl⟩
  simp only [m2, m4, List.nil_append]
  exact hP

end Lib
end Teufel
