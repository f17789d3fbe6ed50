import Verif.Spec.Mesh
import Verif.Lemmas.SourceScreen
import Verif.Lemmas.Observe
import Verif.Props.HybridSerial

/-! # Lemmas on meshes -/

namespace Teufel

open Vec

namespace Mesh

theorem vecAt_ok {α : Type} {l : List α} {i : Nat} {a : α} : Particle.vecAt l i = .ok a ↔ l[i]? = some a := by
  unfold Particle.vecAt
  cases h : l[i]? <;> simp

theorem edgeCross_of {m : Mesh} {ip : Nat} {a b c : Vec} (h : m.Corners ip a b c) : m.edgeCross ip = .ok (cross (c - a) (b - a)) := by
  obtain ⟨t, ht, h1, h2, h3, ha, hb, hc⟩ := h
  unfold edgeCross corner
  rw [vecAt_ok.mpr ht]
  simp only [bind, Except.bind]
  rw [if_pos h1, vecAt_ok.mpr ha]
  dsimp only
  rw [if_pos h2, vecAt_ok.mpr hb]
  dsimp only
  rw [if_pos h3, vecAt_ok.mpr hc]
  rfl

theorem edgeCross_ok {m : Mesh} {ip : Nat} {v : Vec} (h : m.edgeCross ip = .ok v) : ∃ a b c, m.Corners ip a b c ∧ v = cross (c - a) (b - a) := by
  unfold edgeCross corner at h
  cases ht : Particle.vecAt m.triangles ip with
  | error e => rw [ht] at h; cases h
  | ok t =>
    rw [ht] at h
    simp only [bind, Except.bind] at h
    by_cases h1 : 0 ≤ t.p1
    · by_cases h2 : 0 ≤ t.p2
      · by_cases h3 : 0 ≤ t.p3
        · rw [if_pos h1, if_pos h2, if_pos h3] at h
          cases ha : Particle.vecAt m.corners t.p1.toNat with
          | error e => rw [ha] at h; cases h
          | ok a =>
            rw [ha] at h
            dsimp only at h
            cases hb : Particle.vecAt m.corners t.p2.toNat with
            | error e => rw [hb] at h; cases h
            | ok b =>
              rw [hb] at h
              dsimp only at h
              cases hc : Particle.vecAt m.corners t.p3.toNat with
              | error e => rw [hc] at h; cases h
              | ok c =>
                rw [hc] at h
                refine ⟨a, b, c, ⟨t, vecAt_ok.mp ht, h1, h2, h3, vecAt_ok.mp ha, vecAt_ok.mp hb, vecAt_ok.mp hc⟩, ?_⟩
                exact (Except.ok.inj h).symm
        · rw [if_neg h3] at h
          revert h
          split
          · intro h; cases h
          · split <;> intro h <;> cases h
      · rw [if_neg h2] at h
        revert h
        split <;> intro h <;> cases h
    · rw [if_neg h1] at h; cases h

theorem Corners.unique {m : Mesh} {ip : Nat} {a b c a' b' c' : Vec} (h : m.Corners ip a b c) (h' : m.Corners ip a' b' c') : a = a' ∧ b = b' ∧ c = c' := by
  obtain ⟨t, ht, -, -, -, ha, hb, hc⟩ := h
  obtain ⟨t', ht', -, -, -, ha', hb', hc'⟩ := h'
  rw [ht] at ht'
  obtain rfl := Option.some.inj ht'
  rw [ha] at ha'; rw [hb] at hb'; rw [hc] at hc'
  exact ⟨Option.some.inj ha', Option.some.inj hb', Option.some.inj hc'⟩

/-- the edge vectors of all cells of a valid mesh -/
theorem edges_of {m : Mesh} (h : m.Valid) : ∃ ns : List Vec, (List.range m.Np).mapM m.edgeCross = .ok ns ∧ ns.length = m.Np ∧
    ∀ ip a b c, ip < m.Np → m.Corners ip a b c → ns[ip]? = some (cross (c - a) (b - a)) := by
  have hex : ∀ ip ∈ List.range m.Np, ∃ v, m.edgeCross ip = .ok v := by
    intro ip hip
    obtain ⟨a, b, c, hc⟩ := h ip (List.mem_range.mp hip)
    exact ⟨_, edgeCross_of hc⟩
  obtain ⟨ns, hns⟩ := mapM_exists _ _ hex
  have hl := (mapM_except_length hns).1
  refine ⟨ns, hns, by simpa using hl, ?_⟩
  intro ip a b c hip hc
  obtain ⟨v, hv1, hv2⟩ := mapM_get hns ip ip (by simp [hip])
  rw [edgeCross_of hc] at hv1
  rw [hv2, ← Except.ok.inj hv1]

theorem init_of {m : Mesh} (h : m.Valid) : ∃ (g : MeshGeometry) (ns : List Vec), m.init = .ok g ∧ ns.length = m.Np ∧
    (∀ ip a b c, ip < m.Np → m.Corners ip a b c → ns[ip]? = some (cross (c - a) (b - a))) ∧
    g.area = ns.map (fun n => n.norm * 0.5) ∧ g.totalArea = g.area.sum ∧ g.normal = ns.map normalizeE ∧
    g.xi = g.normal.map (fun n => (axes (offY (avgNormal g.normal)) n).1) ∧
    g.eta = g.normal.map (fun n => (axes (offY (avgNormal g.normal)) n).2) := by
  obtain ⟨ns, hns, hl, hc⟩ := edges_of h
  refine ⟨{ area := ns.map (fun n => n.norm * 0.5), totalArea := (ns.map (fun n => n.norm * 0.5)).foldl (· + ·) 0,
            normal := ns.map normalizeE, xi := (ns.map normalizeE).map (fun n => (axes (offY (avgNormal (ns.map normalizeE))) n).1),
            eta := (ns.map normalizeE).map (fun n => (axes (offY (avgNormal (ns.map normalizeE))) n).2) }, ns, ?_, hl, hc, rfl, ?_, rfl, rfl, rfl⟩
  · unfold init
    rw [hns]
    rfl
  · dsimp only
    rw [List.sum_eq_foldl]

theorem norm_one_of {v : Vec} (h : dot v v = 1) : v.norm = 1 := by
  rw [norm_def, ← dot_self, h, Real.sqrt_one]

theorem ne_zero_of {v : Vec} (h : dot v v = 1) : v ≠ 0 := by
  rintro rfl; simp at h

theorem normalize_of_unit {v : Vec} (h : dot v v = 1) : v.normalize = v := by
  rw [normalize_eq, norm_one_of h]; ext <;> simp

/-- frame made of a unit vector perpendicular to the normal -/
theorem rightHanded_of {u n : Vec} (hu : dot u u = 1) (hn : dot n n = 1) (h : dot u n = 0) :
    RightHanded u (cross n u) n ∧ RightHanded (cross u n) u n := by
  have hc : ∀ a b : Vec, dot a a = 1 → dot b b = 1 → dot a b = 0 → dot (cross a b) (cross a b) = 1 := by
    intro a b ha hb hab
    rw [dot_self, lagrange, ← dot_self, ← dot_self, ha, hb, hab]; ring
  have h' : dot n u = 0 := by rw [dot_comm]; exact h
  refine ⟨⟨hu, hc n u hn hu h', hn, ?_, ?_, ?_, ?_⟩, ⟨hc u n hu hn h, hu, hn, ?_, ?_, ?_, ?_⟩⟩
  · exact dot_cross_right n u
  · rw [dot_comm]; exact dot_cross_left n u
  · exact h'
  · have e : cross u (cross n u) = n * dot u u - u * dot u n := by ext <;> simp [dot] <;> ring
    rw [e, hu, h]; ext <;> simp
  · rw [dot_comm]; exact dot_cross_left u n
  · exact h
  · exact dot_cross_right u n
  · have e : cross (cross u n) u = n * dot u u - u * dot u n := by ext <;> simp [dot] <;> ring
    rw [e, hu, h]; ext <;> simp

theorem frameXZ_of {n : Vec} (hn : dot n n = 1) (hx : n.x ≠ 0 ∨ n.z ≠ 0) :
    ∃ xi eta, frameXZ n = (.ok xi, .ok eta) ∧ RightHanded xi eta n ∧ xi.y = 0 := by
  have hv : cross ⟨0, 1, 0⟩ n ≠ 0 := by
    intro e
    have e1 : (cross ⟨0, 1, 0⟩ n).x = 0 := by rw [e]; rfl
    have e2 : (cross ⟨0, 1, 0⟩ n).z = 0 := by rw [e]; rfl
    simp at e1 e2
    rcases hx with h | h
    · exact h e2
    · exact h e1
  set u := (cross ⟨0, 1, 0⟩ n).normalize with hu
  have hu1 : dot u u = 1 := by rw [dot_self]; exact normalize_abs2nd hv
  have hun : dot u n = 0 := by
    rw [hu, normalize_dot, dot_comm, dot_cross_right, zero_div]
  have hr := (rightHanded_of hu1 hn hun).1
  have he1 : dot (cross n u) (cross n u) = 1 := hr.2.1
  refine ⟨u, cross n u, ?_, hr, ?_⟩
  · unfold frameXZ
    rw [normalizeE_of_ne hv]
    simp only [Except.bind]
    rw [normalizeE_of_ne (ne_zero_of he1), normalize_of_unit he1]
  · rw [hu]; simp

theorem frameYZ_of {n : Vec} (hn : dot n n = 1) (hx : n.y ≠ 0 ∨ n.z ≠ 0) :
    ∃ xi eta, frameYZ n = (.ok xi, .ok eta) ∧ RightHanded xi eta n ∧ eta.x = 0 := by
  have hv : cross n ⟨1, 0, 0⟩ ≠ 0 := by
    intro e
    have e1 : (cross n ⟨1, 0, 0⟩).y = 0 := by rw [e]; rfl
    have e2 : (cross n ⟨1, 0, 0⟩).z = 0 := by rw [e]; rfl
    simp at e1 e2
    rcases hx with h | h
    · exact h e2
    · exact h e1
  set u := (cross n ⟨1, 0, 0⟩).normalize with hu
  have hu1 : dot u u = 1 := by rw [dot_self]; exact normalize_abs2nd hv
  have hun : dot u n = 0 := by
    rw [hu, normalize_dot, dot_comm, dot_cross_left, zero_div]
  have hr := (rightHanded_of hu1 hn hun).2
  have he1 : dot (cross u n) (cross u n) = 1 := hr.1
  refine ⟨cross u n, u, ?_, hr, ?_⟩
  · unfold frameYZ
    rw [normalizeE_of_ne hv]
    simp only [Except.bind]
    rw [normalizeE_of_ne (ne_zero_of he1), normalize_of_unit he1]
  · rw [hu]; simp

/-- sum of normals that are numbers -/
theorem foldlM_normals (ns : List Vec) : ∀ s : Vec,
    (ns.map (fun v => (.ok v : Except Err Vec))).foldlM (fun (s : Vec) n => n.map (fun v => s + v)) s = .ok (s + ns.sum) := by
  induction ns with
  | nil => intro s; simp; rfl
  | cons n ns ih =>
    intro s
    rw [List.map_cons, List.foldlM_cons]
    exact (ih (s + n)).trans (by rw [List.sum_cons, add_assoc])

end Mesh
end Teufel
