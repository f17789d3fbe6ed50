import Verif.Lemmas.Mesh
import Verif.Props.SourceScreen

/-!
# C56, C57, C58, C59, C73: meshed screens
-/

namespace Teufel

open Vec

namespace Mesh

/-- the normals of a mesh without degenerate cells -/
theorem normals_of {m : Mesh} {g : MeshGeometry} (hg : m.init = .ok g) (h : m.Valid) {n : Nat → Vec}
    (hn : ∀ ip < m.Np, g.normal[ip]? = some (.ok (n ip))) :
    g.normal = ((List.range m.Np).map n).map (fun v => (.ok v : Except Err Vec)) ∧
    (∀ ip < m.Np, dot (n ip) (n ip) = 1) ∧
    g.xi = g.normal.map (fun n => (axes (offY (avgNormal g.normal)) n).1) ∧
    g.eta = g.normal.map (fun n => (axes (offY (avgNormal g.normal)) n).2) := by
  obtain ⟨g', ns, hg', hl, hc, h1, h2, h3, h4, h5⟩ := init_of h
  rw [hg] at hg'
  obtain rfl := Except.ok.inj hg'
  refine ⟨?_, ?_, h4, h5⟩
  · apply List.ext_getElem?
    intro i
    by_cases hi : i < m.Np
    · rw [hn i hi]; simp [hi]
    · rw [List.getElem?_eq_none, List.getElem?_eq_none]
      · simpa using hi
      · rw [h3]; simpa [hl] using hi
  · intro ip hip
    have := hn ip hip
    rw [h3, List.getElem?_map] at this
    cases hv : ns[ip]? with
    | none => rw [hv] at this; cases this
    | some v =>
      rw [hv] at this
      obtain ⟨hv0, hv1⟩ := normalizeE_ok (Option.some.inj this)
      rw [hv1, dot_self]
      exact normalize_abs2nd hv0

theorem offY_iff {m : Mesh} {g : MeshGeometry} {n : Nat → Vec}
    (hn : g.normal = ((List.range m.Np).map n).map (fun v => (.ok v : Except Err Vec)))
    (hS : ((List.range m.Np).map n).sum ≠ 0) :
    offY (avgNormal g.normal) = true ↔ ((List.range m.Np).map n).sum.y < 0.7 * Vec.norm ((List.range m.Np).map n).sum := by
  have e : avgNormal g.normal = .ok ((List.range m.Np).map n).sum.normalize := by
    unfold avgNormal
    rw [hn, foldlM_normals]
    simp only [bind, Except.bind]
    rw [zero_add, normalizeE_of_ne hS]
  rw [e]
  unfold offY
  dsimp only
  rw [decide_eq_true_iff, normalize_y, div_lt_iff₀ (norm_pos hS)]

end Mesh

open Mesh

/-- C56, areas and normals: the initialisation of a mesh that refers to existing corner points succeeds.  The area of
every cell is half of the cross product of its edges, the total area is the sum of the areas, and every cell that is
not degenerate has a unit normal perpendicular to its edges, pointing into the direction of `(p3-p1)×(p2-p1)`. -/
theorem C56_geometry (m : Mesh) (h : m.Valid) : ∃ g, m.init = .ok g ∧ g.area.length = m.Np ∧ g.totalArea = g.area.sum ∧
    ∀ ip < m.Np, ∀ a b c : Vec, m.Corners ip a b c →
      g.area[ip]? = some (Vec.norm (cross (b - a) (c - a)) / 2) ∧
      (cross (b - a) (c - a) ≠ 0 → ∃ n, g.normal[ip]? = some (.ok n) ∧ Vec.norm n = 1 ∧
        dot n (b - a) = 0 ∧ dot n (c - a) = 0 ∧ 0 < dot n (cross (c - a) (b - a))) := by
  obtain ⟨g, ns, hg, hl, hc, h1, h2, h3, h4, h5⟩ := init_of h
  refine ⟨g, hg, by rw [h1]; simpa using hl, h2, ?_⟩
  intro ip hip a b c hcor
  have hv := hc ip a b c hip hcor
  have hneg : cross (c - a) (b - a) = -cross (b - a) (c - a) := by ext <;> simp <;> ring
  refine ⟨?_, ?_⟩
  · rw [h1, List.getElem?_map, hv, Option.map_some, hneg, norm_neg]
    norm_num [div_eq_mul_inv]
  · intro hne
    have hne' : cross (c - a) (b - a) ≠ 0 := by rw [hneg]; exact neg_ne_zero.mpr hne
    refine ⟨_, by rw [h3, List.getElem?_map, hv, Option.map_some, normalizeE_of_ne hne'], normalize_norm hne', ?_, ?_, ?_⟩
    · rw [normalize_dot, dot_comm, dot_cross_right, zero_div]
    · rw [normalize_dot, dot_comm, dot_cross_left, zero_div]
    · rw [normalize_dot]
      have hp : 0 < (cross (c - a) (b - a)).norm := norm_pos hne'
      rw [dot_self, ← norm_sq]
      positivity

/-- C56, exactly which cells get a frame.  In a mesh without degenerate cells whose normals `n` have the sum `S ≠ 0`,
a cell gets a right-handed orthonormal frame if and only if its normal is not parallel to the y axis (in the case that
the y component of the average normal is below 0.7) or not parallel to the x axis (otherwise). -/
theorem C56_frame_iff (m : Mesh) (h : m.Valid) (g : MeshGeometry) (hg : m.init = .ok g) (n : Nat → Vec)
    (hn : ∀ ip < m.Np, g.normal[ip]? = some (.ok (n ip))) (S : Vec) (hS : S = ((List.range m.Np).map n).sum) (hS0 : S ≠ 0)
    (ip : Nat) (hip : ip < m.Np) :
    (∃ xi eta, Framed g ip xi eta (n ip)) ↔
      if S.y < 0.7 * Vec.norm S then (n ip).x ≠ 0 ∨ (n ip).z ≠ 0 else (n ip).y ≠ 0 ∨ (n ip).z ≠ 0 := by
  obtain ⟨hl, hu, hxi, heta⟩ := normals_of hg h hn
  have hoff := offY_iff hl (hS ▸ hS0)
  rw [← hS] at hoff
  have ex : g.xi[ip]? = some (axes (offY (avgNormal g.normal)) (.ok (n ip))).1 := by
    rw [hxi, List.getElem?_map, hn ip hip, Option.map_some]
  have ee : g.eta[ip]? = some (axes (offY (avgNormal g.normal)) (.ok (n ip))).2 := by
    rw [heta, List.getElem?_map, hn ip hip, Option.map_some]
  unfold Framed
  rw [ex, ee, hn ip hip]
  by_cases hb : S.y < 0.7 * Vec.norm S
  · rw [if_pos hb, hoff.mpr hb]
    have e1 : axes true (.ok (n ip)) = frameXZ (n ip) := rfl
    rw [e1]
    constructor
    · rintro ⟨xi, eta, h1, h2, -, hr⟩
      by_contra hc
      push Not at hc
      have hz : cross ⟨0, 1, 0⟩ (n ip) = 0 := by ext <;> simp [hc.1, hc.2]
      unfold frameXZ at h1
      rw [hz] at h1
      unfold normalizeE at h1
      simp at h1
    · intro hx
      obtain ⟨xi, eta, hf, hr, -⟩ := frameXZ_of (hu ip hip) hx
      rw [hf]
      exact ⟨xi, eta, rfl, rfl, rfl, hr⟩
  · rw [if_neg hb, Bool.eq_false_iff.mpr (fun e => hb (hoff.mp e))]
    have e1 : axes false (.ok (n ip)) = frameYZ (n ip) := rfl
    rw [e1]
    constructor
    · rintro ⟨xi, eta, h1, h2, -, hr⟩
      by_contra hc
      push Not at hc
      have hz : cross (n ip) ⟨1, 0, 0⟩ = 0 := by ext <;> simp [hc.1, hc.2]
      unfold frameYZ at h2
      rw [hz] at h2
      unfold normalizeE at h2
      simp at h2
    · intro hx
      obtain ⟨xi, eta, hf, hr, -⟩ := frameYZ_of (hu ip hip) hx
      rw [hf]
      exact ⟨xi, eta, rfl, rfl, rfl, hr⟩

/-- C56, frames.  In a mesh without degenerate cells whose normals `n` have the sum `S`, all cells get a right-handed
orthonormal frame `(xi, eta, n)` in two cases: if the average normal is more than 45 degrees away from both directions
of the y axis and all normals are aligned with it up to the limit of the warning given by the code; or if it is close to
the positive y axis and the normals are aligned slightly better than that.
Missing: average normals close to the negative y axis, see the theorem below. -/
theorem C56_frames_partial (m : Mesh) (h : m.Valid) (g : MeshGeometry) (hg : m.init = .ok g) (n : Nat → Vec)
    (hn : ∀ ip < m.Np, g.normal[ip]? = some (.ok (n ip))) (S : Vec) (hS : S = ((List.range m.Np).map n).sum) (hS0 : S ≠ 0)
    (hcase : (|S.y| < 0.7 * Vec.norm S ∧ ∀ ip < m.Np, 0.7 * Vec.norm S ≤ dot (n ip) S) ∨
      (0.7 * Vec.norm S ≤ S.y ∧ ∀ ip < m.Np, 0.72 * Vec.norm S ≤ dot (n ip) S)) :
    ∀ ip < m.Np, ∃ xi eta, Framed g ip xi eta (n ip) := by
  intro ip hip
  have hu := (normals_of hg h hn).2.1 ip hip
  rw [C56_frame_iff m h g hg n hn S hS hS0 ip hip]
  have hp := norm_pos hS0
  rcases hcase with ⟨h1, h2⟩ | ⟨h1, h2⟩
  · rw [if_pos (lt_of_le_of_lt (le_abs_self _) h1)]
    by_contra hc
    push Not at hc
    have hd := h2 ip hip
    unfold dot at hu hd
    rw [hc.1, hc.2] at hu hd
    have hy : |(n ip).y| = 1 := by
      rw [← sq_eq_sq₀ (abs_nonneg _) (by norm_num), sq_abs]; nlinarith
    have : (n ip).y * S.y ≤ |S.y| := by
      calc (n ip).y * S.y ≤ |(n ip).y * S.y| := le_abs_self _
        _ = |S.y| := by rw [abs_mul, hy, one_mul]
    nlinarith
  · rw [if_neg (not_lt.mpr h1)]
    by_contra hc
    push Not at hc
    have hd := h2 ip hip
    unfold dot at hu hd
    rw [hc.1, hc.2] at hu hd
    have hx : |(n ip).x| = 1 := by
      rw [← sq_eq_sq₀ (abs_nonneg _) (by norm_num), sq_abs]; nlinarith
    have h3 : (n ip).x * S.x ≤ |S.x| := by
      calc (n ip).x * S.x ≤ |(n ip).x * S.x| := le_abs_self _
        _ = |S.x| := by rw [abs_mul, hx, one_mul]
    have h4 : 0.72 * Vec.norm S ≤ |S.x| := by nlinarith
    have h5 := norm_sq S
    unfold abs2nd at h5
    have h6 : (0.72 * Vec.norm S) ^ 2 ≤ S.x ^ 2 := by
      rw [← sq_abs S.x]; exact pow_le_pow_left₀ (by positivity) h4 2
    have h7 : (0.7 * Vec.norm S) ^ 2 ≤ S.y ^ 2 := pow_le_pow_left₀ (by positivity) h1 2
    nlinarith [sq_nonneg S.z, sq_pos_of_pos hp]

/-- a mesh that consists of one triangle -/
noncomputable def oneTriangle (a b c : Vec) : Mesh :=
  { Ncp := 3, Np := 1, Nt := 0, dt := 0, corners := [a, b, c], triangles := [⟨0, 1, 2⟩], points := [a], A := [FieldTrace.new 0 0 0] }

theorem oneTriangle_corners (a b c : Vec) : (oneTriangle a b c).Corners 0 a b c :=
  ⟨⟨0, 1, 2⟩, rfl, by decide, by decide, by decide, rfl, rfl, rfl⟩

theorem oneTriangle_valid (a b c : Vec) : (oneTriangle a b c).Valid := by
  intro ip hip
  have : ip = 0 := by simp [oneTriangle] at hip; exact hip
  subst this
  exact ⟨a, b, c, oneTriangle_corners a b c⟩

theorem oneTriangle_normal (a b c n : Vec) (hn : cross (c - a) (b - a) = n) (h1 : dot n n = 1) :
    ∃ g, (oneTriangle a b c).init = .ok g ∧ g.normal[0]? = some (.ok n) := by
  obtain ⟨g, ns, hg, hl, hc, -, -, h3, -, -⟩ := init_of (oneTriangle_valid a b c)
  refine ⟨g, hg, ?_⟩
  have := hc 0 a b c (by simp [oneTriangle]) (oneTriangle_corners a b c)
  rw [h3, List.getElem?_map, this, Option.map_some, hn, normalizeE_of_ne (ne_zero_of h1), normalize_of_unit h1]

/-- a cell in the x-y plane meets the hypotheses of the theorems -/
example : ∃ g xi eta, (oneTriangle 0 ⟨0, 1, 0⟩ ⟨1, 0, 0⟩).init = .ok g ∧ Framed g 0 xi eta ⟨0, 0, 1⟩ := by
  obtain ⟨g, hg, hn⟩ := oneTriangle_normal 0 ⟨0, 1, 0⟩ ⟨1, 0, 0⟩ ⟨0, 0, 1⟩ (by ext <;> simp) (by simp [dot])
  have h0 : Vec.norm ⟨0, 0, 1⟩ = 1 := norm_one_of (by simp [dot])
  obtain ⟨xi, eta, h⟩ := C56_frames_partial (oneTriangle 0 ⟨0, 1, 0⟩ ⟨1, 0, 0⟩) (oneTriangle_valid _ _ _) g hg (fun _ => ⟨0, 0, 1⟩)
    (by intro ip hip
        have : ip = 0 := by simp [oneTriangle] at hip; exact hip
        subst this; exact hn) ⟨0, 0, 1⟩ (by simp [oneTriangle]) (ne_zero_of (by simp [dot]))
    (Or.inl ⟨by rw [h0]; norm_num, fun ip _ => by rw [h0]; norm_num [dot]⟩) 0 (by simp [oneTriangle])
  exact ⟨g, xi, eta, hg, h⟩

/-- C56 does not hold for all meshes: a single, perfectly regular cell whose normal points down gets no frame.  (The
comparison in the code does not take the absolute value.) -/
theorem C56_full_statement_false :
    ¬ ∀ (m : Mesh), m.Valid → ∀ g, m.init = .ok g → ∀ ip < m.Np, ∀ a b c, m.Corners ip a b c → cross (b - a) (c - a) ≠ 0 →
      ∃ xi eta n, Framed g ip xi eta n := by
  intro hall
  obtain ⟨g, hg, hn⟩ := oneTriangle_normal 0 ⟨0, 0, 1⟩ ⟨1, 0, 0⟩ ⟨0, -1, 0⟩ (by ext <;> simp) (by simp [dot])
  obtain ⟨xi, eta, n, hf⟩ := hall _ (oneTriangle_valid 0 ⟨0, 0, 1⟩ ⟨1, 0, 0⟩) g hg 0 (by simp [oneTriangle]) _ _ _
    (oneTriangle_corners _ _ _) (by
      intro e
      have : (cross ((⟨0, 0, 1⟩ : Vec) - 0) (⟨1, 0, 0⟩ - 0)).y = 0 := by rw [e]; rfl
      simp at this)
  have hn' : n = ⟨0, -1, 0⟩ := by
    have := hf.2.2.1
    rw [hn] at this
    exact (Except.ok.inj (Option.some.inj this)).symm
  subst hn'
  have hiff := C56_frame_iff (oneTriangle 0 ⟨0, 0, 1⟩ ⟨1, 0, 0⟩) (oneTriangle_valid _ _ _) g hg (fun _ => ⟨0, -1, 0⟩)
    (by intro ip hip
        have : ip = 0 := by simp [oneTriangle] at hip; exact hip
        subst this; exact hn) ⟨0, -1, 0⟩ (by simp [oneTriangle]) (ne_zero_of (by simp [dot])) 0 (by simp [oneTriangle])
  have h0 : Vec.norm ⟨0, -1, 0⟩ = 1 := norm_one_of (by simp [dot])
  have h1 := hiff.mp ⟨xi, eta, hf⟩
  rw [if_pos (by rw [h0]; norm_num)] at h1
  simp at h1

/-! ## C57: neighbourhood -/

namespace Mesh

theorem common_iff (t u : Tri) : common t u = true ↔ ∃ k : Int, (k = t.p1 ∨ k = t.p2 ∨ k = t.p3) ∧ (k = u.p1 ∨ k = u.p2 ∨ k = u.p3) := by
  unfold common
  simp only [Bool.or_eq_true, beq_iff_eq]
  constructor
  · intro h
    rcases h with (((((((h | h) | h) | h) | h) | h) | h) | h) | h
    · exact ⟨t.p1, by simp, by simp [h]⟩
    · exact ⟨t.p1, by simp, by simp [h]⟩
    · exact ⟨t.p1, by simp, by simp [h]⟩
    · exact ⟨t.p2, by simp, by simp [h]⟩
    · exact ⟨t.p2, by simp, by simp [h]⟩
    · exact ⟨t.p2, by simp, by simp [h]⟩
    · exact ⟨t.p3, by simp, by simp [h]⟩
    · exact ⟨t.p3, by simp, by simp [h]⟩
    · exact ⟨t.p3, by simp, by simp [h]⟩
  · rintro ⟨k, h1, h2⟩
    rcases h1 with h1 | h1 | h1 <;> rcases h2 with h2 | h2 | h2 <;> simp [← h1, ← h2]

/-- the cells with a common corner, in ascending order -/
def touching (m : Mesh) (u : Tri) : List Nat :=
  (List.range m.Np).filter (fun i => match m.triangles[i]? with | some t => common t u | none => false)

theorem nbh_loop (m : Mesh) (u : Tri) (is : List Nat) (h : ∀ i ∈ is, i < m.triangles.length) : ∀ buf,
    is.foldlM (m.nbhStep u) buf
      = .ok (buf ++ is.filter (fun i => match m.triangles[i]? with | some t => common t u | none => false)) := by
  induction is with
  | nil => intro buf; simp; rfl
  | cons i is ih =>
    intro buf
    have hi := h i (by simp)
    have hs : m.nbhStep u buf i = .ok (if common m.triangles[i] u then buf ++ [i] else buf) := by
      unfold nbhStep
      rw [vecAt_ok.mpr (List.getElem?_eq_getElem hi)]
      rfl
    rw [List.foldlM_cons, hs]
    simp only [bind, Except.bind]
    rw [ih (fun j hj => h j (by simp [hj]))]
    rw [List.filter_cons, List.getElem?_eq_getElem hi]
    dsimp only
    split <;> simp

theorem mem_touching {m : Mesh} {index : Nat} {u : Tri} (hu : m.triangles[index]? = some u) (i : Nat) :
    i ∈ m.touching u ↔ i < m.Np ∧ m.Touch i index := by
  unfold touching Touch
  rw [List.mem_filter, List.mem_range]
  constructor
  · rintro ⟨h1, h2⟩
    cases ht : m.triangles[i]? with
    | none => rw [ht] at h2; cases h2
    | some t => rw [ht] at h2; exact ⟨h1, t, u, rfl, hu, (common_iff t u).mp h2⟩
  · rintro ⟨h1, t, u', ht, hu', hk⟩
    rw [hu] at hu'
    obtain rfl := Option.some.inj hu'
    refine ⟨h1, ?_⟩
    rw [ht]
    exact (common_iff t u).mpr hk

theorem getNeighbourhood_eq {m : Mesh} (h : m.triangles.length = m.Np) {index : Nat} {u : Tri} (hu : m.triangles[index]? = some u) (room : Nat) :
    m.getNeighbourhood index room = if (m.touching u).length ≤ room then .ok (m.touching u) else .error .ub := by
  unfold getNeighbourhood
  rw [vecAt_ok.mpr hu]
  simp only [bind, Except.bind]
  rw [nbh_loop m u (List.range m.Np) (fun i hi => by rw [h]; exact List.mem_range.mp hi)]
  rfl

end Mesh

/-- C57, what is returned: the neighbourhood of a cell consists of exactly the cells that have a corner in common with
it, including itself, each once and in ascending order, and fits into the buffer of the caller. -/
theorem C57_neighbourhood (m : Mesh) (h : m.triangles.length = m.Np) (index room : Nat) (hi : index < m.Np) (l : List Nat)
    (hl : m.getNeighbourhood index room = .ok l) :
    (∀ i, i ∈ l ↔ i < m.Np ∧ m.Touch i index) ∧ index ∈ l ∧ l.Pairwise (· < ·) ∧ l.length ≤ room := by
  have hu := List.getElem?_eq_getElem (by rw [h]; exact hi : index < m.triangles.length)
  rw [getNeighbourhood_eq h hu] at hl
  split at hl
  · rename_i hroom
    obtain rfl := Except.ok.inj hl
    refine ⟨mem_touching hu, ?_, ?_, hroom⟩
    · rw [mem_touching hu]
      exact ⟨hi, _, _, hu, hu, m.triangles[index].p1, by simp, by simp⟩
    · exact List.Pairwise.filter _ List.pairwise_lt_range
  · cases hl

/-- C57, when it fits: the call is safe if the buffer has room for as many indices as the mesh has cells with a corner
in common with the given one (`touch` lists them), and writes behind the buffer otherwise.
Missing: nothing bounds this number by the 24 (or the documented 20) the callers provide, see the theorem below. -/
theorem C57_fits_partial (m : Mesh) (h : m.triangles.length = m.Np) (index room : Nat) (hi : index < m.Np) (touch : List Nat)
    (ht : ∀ i, i ∈ touch ↔ i < m.Np ∧ m.Touch i index) (hd : touch.Nodup) :
    (touch.length ≤ room → ∃ l, m.getNeighbourhood index room = .ok l) ∧
    (room < touch.length → m.getNeighbourhood index room = .error .ub) := by
  have hu := List.getElem?_eq_getElem (by rw [h]; exact hi : index < m.triangles.length)
  have hlen : touch.length = (m.touching m.triangles[index]).length := by
    apply List.Perm.length_eq
    refine (List.perm_ext_iff_of_nodup hd (show (m.touching m.triangles[index]).Nodup from List.Nodup.filter _ List.nodup_range)).mpr ?_
    intro i
    rw [ht]
    exact (mem_touching hu i).symm
  rw [getNeighbourhood_eq h hu, hlen]
  refine ⟨fun hr => ⟨_, by rw [if_pos hr]⟩, fun hr => by rw [if_neg (by omega)]⟩

/-- a fan of `k` triangles around a common corner -/
noncomputable def fan (k : Nat) : Mesh :=
  { Ncp := k + 2, Np := k, Nt := 0, dt := 0, corners := (List.range (k + 2)).map (fun i : Nat => ⟨i, i * i, 0⟩),
    triangles := (List.range k).map (fun i : Nat => ⟨0, i + 1, i + 2⟩), points := List.replicate k 0,
    A := List.replicate k (FieldTrace.new 0 0 0) }

theorem fan_touch (k i j : Nat) (hi : i < k) (hj : j < k) : (fan k).Touch i j := by
  refine ⟨⟨0, i + 1, i + 2⟩, ⟨0, j + 1, j + 2⟩, ?_, ?_, 0, by simp, by simp⟩
  · simp [fan, hi]
  · simp [fan, hj]

theorem fan_neighbourhood (k room : Nat) (hk : 0 < k) :
    (k ≤ room → ∃ l, (fan k).getNeighbourhood 0 room = .ok l) ∧ (room < k → (fan k).getNeighbourhood 0 room = .error .ub) := by
  have := C57_fits_partial (fan k) (by simp [fan]) 0 room (by simpa [fan] using hk) (List.range k)
    (by intro i
        rw [List.mem_range]
        exact ⟨fun h => ⟨h, fan_touch k i 0 h hk⟩, fun h => h.1⟩) List.nodup_range
  simpa using this

/-- the hypotheses are met: a fan of six triangles -/
example : ∃ l, (fan 6).getNeighbourhood 0 24 = .ok l := (fan_neighbourhood 6 24 (by norm_num)).1 (by norm_num)

/-- C57: the buffer of 24 indices that `propagate` and `reflection` provide does not suffice for every mesh. -/
theorem C57_full_statement_false : ¬ ∀ (m : Mesh), m.triangles.length = m.Np → m.Valid → ∀ index < m.Np,
    ∃ l, m.getNeighbourhood index 24 = .ok l := by
  intro hall
  obtain ⟨l, hl⟩ := hall (fan 25) (by simp [fan]) (by
    intro ip hip
    have hip' : ip < 25 := hip
    have hr : ∀ j : Nat, j < 27 → (fan 25).corners[j]? = some ⟨j, j * j, 0⟩ := by
      intro j hj; simp [fan, hj]
    refine ⟨_, _, _, ⟨0, ip + 1, ip + 2⟩, by simp [fan, hip'], by simp, by simp; omega, by simp; omega,
      hr 0 (by omega), hr (ip + 1) (by omega), hr (ip + 2) (by omega)⟩) 0 (by simp [fan])
  rw [(fan_neighbourhood 25 24 (by norm_num)).2 (by norm_num)] at hl
  cases hl

/-! ## C58: time step -/

/-- C58: the reported time step equals the sampling step exactly if the latter is a whole number of seconds.
Missing: all other time steps, see below. -/
theorem C58_time_step_partial (m : Mesh) : (m.getDt : ℝ) = m.dt ↔ ∃ k : ℤ, m.dt = k := by
  unfold Mesh.getDt
  constructor
  · intro h; exact ⟨_, h.symm⟩
  · rintro ⟨k, hk⟩
    rw [hk]
    split_ifs <;> simp

/-- C58 fails for every time step that is used in practice: below one second the reported time step is zero. -/
theorem C58_full_statement_false (m : Mesh) (h0 : 0 < m.dt) (h1 : m.dt < 1) : m.getDt = 0 ∧ (m.getDt : ℝ) ≠ m.dt := by
  have h : m.getDt = 0 := by
    unfold Mesh.getDt
    rw [if_pos h0.le, Int.floor_eq_zero_iff]
    exact ⟨h0.le, h1⟩
  refine ⟨h, ?_⟩
  rw [h]
  simpa using h0.ne

example : ({ fan 3 with dt := 1 / 10 } : Mesh).getDt = 0 := (C58_full_statement_false _ (by norm_num) (by norm_num)).1

/-! ## C59: energy -/

namespace Mesh

theorem foldlM_add {α : Type} (l : List α) (step : ℝ → α → Except Err ℝ) (f : α → ℝ) (h : ∀ a ∈ l, ∀ t, step t a = .ok (t + f a)) :
    ∀ t, l.foldlM step t = .ok (t + (l.map f).sum) := by
  induction l with
  | nil => intro t; simp; rfl
  | cons a l ih =>
    intro t
    rw [List.foldlM_cons, h a (by simp)]
    exact (ih (fun b hb => h b (by simp [hb])) (t + f a)).trans (by rw [List.map_cons, List.sum_cons, add_assoc])

/-- the same cells with the opposite orientation -/
def reversed (m : Mesh) : Mesh := { m with triangles := m.triangles.map (fun t => ⟨t.p1, t.p3, t.p2⟩) }

/-- the same mesh with all fields multiplied by `k` -/
noncomputable def scaled (m : Mesh) (k : ℝ) : Mesh := { m with A := m.A.map (fun tr => tr.smul k) }

theorem reversed_corners {m : Mesh} {ip : Nat} {a b c : Vec} (h : m.Corners ip a b c) : m.reversed.Corners ip a c b := by
  obtain ⟨t, ht, h1, h2, h3, ha, hb, hc⟩ := h
  exact ⟨⟨t.p1, t.p3, t.p2⟩, by simp [reversed, ht], h1, h3, h2, ha, hc, hb⟩

theorem smul_poynting (tr : FieldTrace) (k : ℝ) : (tr.smul k).poynting = tr.poynting * k ^ 2 := by
  have hp : ∀ f : EMField, cross (f * k).E (f * k).B / MuNull = (cross f.E f.B / MuNull) * k ^ 2 := by
    intro f; ext <;> simp <;> ring
  have hs : ∀ l : List EMField, ((l.map (fun f : EMField => f * k)).map (fun f => cross f.E f.B / MuNull)).sum = (l.map (fun f => cross f.E f.B / MuNull)).sum * k ^ 2 := by
    intro l
    induction l with
    | nil => simp [mul_zero']
    | cons f l ih => simp only [List.map_cons, List.sum_cons]; rw [ih, hp, add_mul']
  rw [FieldTrace.poynting_eq, FieldTrace.poynting_eq]
  unfold FieldTrace.smul
  dsimp only
  rw [hs]
  ext <;> simp <;> ring

end Mesh

/-- C59: for a mesh of non-degenerate triangles `(a ip, b ip, c ip)` with the traces `tr ip`, the total energy is the sum
over all cells of the energy that passes the triangle against its normal. -/
theorem C59_energy (m : Mesh) (g : MeshGeometry) (hg : m.init = .ok g) (a b c : Nat → Vec) (tr : Nat → FieldTrace)
    (hc : ∀ ip < m.Np, m.Corners ip (a ip) (b ip) (c ip)) (hne : ∀ ip < m.Np, cross (b ip - a ip) (c ip - a ip) ≠ 0)
    (hA : ∀ ip < m.Np, m.A[ip]? = some (tr ip)) :
    m.totalEnergy g = .ok ((List.range m.Np).map (fun ip => through (tr ip).poynting (a ip) (b ip) (c ip))).sum := by
  obtain ⟨g', ns, hg', hl, hcn, h1, h2, h3, h4, h5⟩ := init_of (fun ip hip => ⟨_, _, _, hc ip hip⟩)
  rw [hg] at hg'
  obtain rfl := Except.ok.inj hg'
  unfold Mesh.totalEnergy
  rw [foldlM_add (List.range m.Np) (m.energyStep g) (fun ip => through (tr ip).poynting (a ip) (b ip) (c ip)), zero_add]
  intro ip hip t
  have hip' := List.mem_range.mp hip
  have hv := hcn ip _ _ _ hip' (hc ip hip')
  have hneg : cross (c ip - a ip) (b ip - a ip) = -cross (b ip - a ip) (c ip - a ip) := by ext <;> simp <;> ring
  have hne' : cross (c ip - a ip) (b ip - a ip) ≠ 0 := by rw [hneg]; exact neg_ne_zero.mpr (hne ip hip')
  unfold Mesh.energyStep
  rw [vecAt_ok.mpr (hA ip hip')]
  simp only [bind, Except.bind]
  rw [vecAt_ok.mpr (show g.area[ip]? = some _ by rw [h1, List.getElem?_map, hv, Option.map_some])]
  dsimp only
  rw [vecAt_ok.mpr (show g.normal[ip]? = some _ by rw [h3, List.getElem?_map, hv, Option.map_some])]
  dsimp only
  rw [normalizeE_of_ne hne']
  simp only [pure, Except.pure, Except.ok.injEq]
  have hp : (cross (c ip - a ip) (b ip - a ip)).norm ≠ 0 := (norm_pos hne').ne'
  rw [dot_comm, normalize_dot]
  unfold through
  rw [hneg, norm_neg, dot_neg_left] at *
  rw [dot_comm]
  field_simp
  ring

/-- C59: reversing the orientation of all cells changes the sign of the energy, multiplying all fields with `k`
multiplies it with `k²`. -/
theorem C59_symmetry (m : Mesh) (g g' gk : MeshGeometry) (k : ℝ) (hg : m.init = .ok g) (hg' : m.reversed.init = .ok g')
    (hgk : (m.scaled k).init = .ok gk) (hv : m.Valid) (hne : ∀ ip < m.Np, ∀ a b c, m.Corners ip a b c → cross (b - a) (c - a) ≠ 0)
    (hA : m.A.length = m.Np) :
    ∃ E : ℝ, m.totalEnergy g = .ok E ∧ m.reversed.totalEnergy g' = .ok (-E) ∧ (m.scaled k).totalEnergy gk = .ok (k ^ 2 * E) := by
  choose! a b c hc using hv
  have hA' : ∀ ip < m.Np, m.A[ip]? = some ((m.A[ip]?).getD (FieldTrace.new 0 0 0)) := by
    intro ip hip
    rw [List.getElem?_eq_getElem (by rw [hA]; exact hip)]; rfl
  set tr : Nat → FieldTrace := fun ip => (m.A[ip]?).getD (FieldTrace.new 0 0 0) with htr
  refine ⟨_, C59_energy m g hg a b c tr hc (fun ip hip => hne ip hip _ _ _ (hc ip hip)) hA', ?_, ?_⟩
  · rw [C59_energy m.reversed g' hg' a c b tr (fun ip hip => reversed_corners (hc ip hip))
      (fun ip hip e => hne ip hip _ _ _ (hc ip hip) (by
        rw [show cross (b ip - a ip) (c ip - a ip) = -cross (c ip - a ip) (b ip - a ip) by ext <;> simp <;> ring, e, neg_zero])) hA']
    congr 1
    rw [List.sum_neg, List.map_map]
    congr 1
    apply List.map_congr_left
    intro ip _
    show through _ _ _ _ = -through _ _ _ _
    unfold through
    rw [show cross (c ip - a ip) (b ip - a ip) = -cross (b ip - a ip) (c ip - a ip) by ext <;> simp <;> ring, dot_neg_right, neg_div]
  · rw [C59_energy (m.scaled k) gk hgk a b c (fun ip => (tr ip).smul k) hc (fun ip hip => hne ip hip _ _ _ (hc ip hip))
      (by intro ip hip
          show (m.A.map _)[ip]? = _
          rw [List.getElem?_map, hA' ip hip]; rfl)]
    congr 1
    rw [← List.sum_map_mul_left]
    congr 1
    apply List.map_congr_left
    intro ip _
    unfold through
    rw [smul_poynting, dot_mul_left]
    ring

/-- the hypotheses are met: one cell that records two samples of a field -/
example : ∃ (m : Mesh) (g g' gk : MeshGeometry), m.init = .ok g ∧ m.reversed.init = .ok g' ∧ (m.scaled 2).init = .ok gk ∧
    m.Valid ∧ (∀ ip < m.Np, ∀ a b c, m.Corners ip a b c → cross (b - a) (c - a) ≠ 0) ∧ m.A.length = m.Np ∧ m.totalEnergy g = .ok (1 / (2 * MuNull)) := by
  let tr : FieldTrace := ⟨0, 1 / 2, 2, [⟨⟨1, 0, 0⟩, ⟨0, -1, 0⟩⟩, ⟨⟨1, 0, 0⟩, ⟨0, -1, 0⟩⟩]⟩
  let m : Mesh := { oneTriangle 0 ⟨0, 1, 0⟩ ⟨1, 0, 0⟩ with Nt := 2, dt := 1 / 2, A := [tr] }
  have hv : m.Valid := oneTriangle_valid 0 ⟨0, 1, 0⟩ ⟨1, 0, 0⟩
  have hv' : m.reversed.Valid := fun ip hip => by
    obtain ⟨a, b, c, h⟩ := hv ip hip
    exact ⟨a, c, b, reversed_corners h⟩
  have hvk : (m.scaled 2).Valid := hv
  obtain ⟨g, -, hg, -⟩ := init_of hv
  obtain ⟨g', -, hg', -⟩ := init_of hv'
  obtain ⟨gk, -, hgk, -⟩ := init_of hvk
  have hcor : m.Corners 0 0 ⟨0, 1, 0⟩ ⟨1, 0, 0⟩ := oneTriangle_corners 0 ⟨0, 1, 0⟩ ⟨1, 0, 0⟩
  have hz : cross ((⟨0, 1, 0⟩ : Vec) - 0) (⟨1, 0, 0⟩ - 0) ≠ 0 := by
    intro e
    have : (cross ((⟨0, 1, 0⟩ : Vec) - 0) (⟨1, 0, 0⟩ - 0)).z = 0 := by rw [e]; rfl
    simp at this
  have h1 : ∀ ip < m.Np, ip = 0 := fun ip hip => Nat.lt_one_iff.mp hip
  refine ⟨m, g, g', gk, hg, hg', hgk, hv, ?_, rfl, ?_⟩
  · intro ip hip a b c hc
    obtain rfl := h1 ip hip
    obtain ⟨rfl, rfl, rfl⟩ := hcor.unique hc
    exact hz
  · rw [C59_energy m g hg (fun _ => 0) (fun _ => ⟨0, 1, 0⟩) (fun _ => ⟨1, 0, 0⟩) (fun _ => tr)
      (fun ip hip => by obtain rfl := h1 ip hip; exact hcor) (fun ip hip => hz) (fun ip hip => by obtain rfl := h1 ip hip; rfl)]
    congr 1
    have hp : tr.poynting = ⟨0, 0, -1 / MuNull⟩ := by
      rw [FieldTrace.poynting_eq]
      ext <;> simp [tr] <;> ring
    have hr : List.range m.Np = [0] := rfl
    rw [hr, hp]
    simp [through, dot]
    ring

/-! ## C73: files -/

namespace Mesh

theorem mapM_range_vecAt {α : Type} (l : List α) : (List.range l.length).mapM (fun i : Nat => Particle.vecAt l i) = .ok l := by
  have h : ∀ i ∈ List.range l.length, ∃ b, Particle.vecAt l i = .ok b := by
    intro i hi
    exact ⟨_, vecAt_ok.mpr (List.getElem?_eq_getElem (List.mem_range.mp hi))⟩
  obtain ⟨l', hl'⟩ := mapM_exists _ _ h
  rw [hl']
  congr 1
  apply List.ext_getElem?
  intro i
  have hlen := (mapM_except_length hl').1
  rw [List.length_range] at hlen
  by_cases hi : i < l.length
  · obtain ⟨b, hb, hb'⟩ := mapM_get hl' i i (by simp [hi])
    rw [hb', vecAt_ok.mp hb]
  · rw [List.getElem?_eq_none (by omega), List.getElem?_eq_none (by omega)]

theorem flatten_drop_take {α : Type} (L : List (List α)) (n : Nat) (h : ∀ l ∈ L, l.length = n) : ∀ (i : Nat) (l : List α), L[i]? = some l →
    (L.flatten.drop (i * n)).take n = l := by
  induction L with
  | nil => intro i l hl; simp at hl
  | cons a L ih =>
    intro i l hl
    have ha := h a (by simp)
    cases i with
    | zero =>
      simp only [List.getElem?_cons_zero, Option.some.injEq] at hl
      subst hl
      simp [← ha]
    | succ i =>
      rw [List.getElem?_cons_succ] at hl
      rw [List.flatten_cons, show (i + 1) * n = a.length + i * n by rw [ha]; ring, List.drop_append, List.drop_eq_nil_of_le (by omega)]
      simp only [List.nil_append, Nat.add_sub_cancel_left]
      exact ih (fun l hl => h l (by simp [hl])) i l hl

theorem flatten_length {α : Type} (L : List (List α)) (n : Nat) (h : ∀ l ∈ L, l.length = n) : L.flatten.length = L.length * n := by
  induction L with
  | nil => simp
  | cons a L ih =>
    rw [List.flatten_cons, List.length_append, ih (fun l hl => h l (by simp [hl])), h a (by simp), List.length_cons]
    ring

theorem readInto_ok {α : Type} {zero : α} {n : Nat} {data l : List α} (h : readInto zero n data = .ok l) : l.length = n := by
  unfold readInto at h
  split at h
  · rename_i hl
    obtain rfl := Except.ok.inj h
    simp; omega
  · cases h

theorem readInto_full {α : Type} (zero : α) (data : List α) : readInto zero data.length data = .ok data := by
  unfold readInto; simp

theorem readRaw_ok {α : Type} {n : Nat} {data l : List α} (h : readRaw n data = .ok l) : l.length = n ∧ l = data := by
  unfold readRaw at h
  split at h
  · obtain rfl := Except.ok.inj h; exact ⟨by assumption, rfl⟩
  · cases h

theorem readRaw_full {α : Type} (data : List α) : readRaw data.length data = .ok data := by
  unfold readRaw; simp

theorem new_WF (t0 dt : ℝ) (n : Nat) : (FieldTrace.new t0 dt n).WF := by simp [FieldTrace.WF, FieldTrace.new]

/-- reading back the traces -/
theorem readFields_of (Nt : Nat) (dt : ℝ) (A : List FieldTrace) (h : ∀ tr ∈ A, tr.WF ∧ tr.N = Nt ∧ tr.dt = dt) (hs : A.length * Nt < 2 ^ 31) :
    readFields A.length Nt (A.map (fun tr => FieldTrace.new tr.t0 dt Nt)) (some (A.map (fun tr => tr.trace)).flatten) = .ok A := by
  have hlen : ∀ l ∈ A.map (fun tr => tr.trace), l.length = Nt := by
    intro l hl
    obtain ⟨tr, htr, rfl⟩ := List.mem_map.mp hl
    exact (h tr htr).1.trans (h tr htr).2.1
  have hfl : (A.map (fun tr => tr.trace)).flatten.length = A.length * Nt := by rw [flatten_length _ Nt hlen, List.length_map]
  unfold readFields
  dsimp only
  rw [if_neg (by omega), ← hfl, readInto_full]
  simp only [bind, Except.bind]
  have key : ∀ ti ∈ (A.map (fun tr => FieldTrace.new tr.t0 dt Nt)).zipIdx,
      ti.1.setBuffer ((A.map (fun tr => tr.trace)).flatten.drop (ti.2 * Nt)) Nt
        = .ok ((A[ti.2]?).getD (FieldTrace.new 0 0 0)) := by
    rintro ⟨s, i⟩ hi
    rw [List.mem_zipIdx_iff_getElem?, List.getElem?_map] at hi
    cases hA : A[i]? with
    | none => rw [hA] at hi; cases hi
    | some tr =>
      rw [hA] at hi
      obtain rfl := Option.some.inj hi
      have htr := h tr (List.mem_of_getElem? hA)
      have hL : (A.map (fun tr => tr.trace))[i]? = some tr.trace := by rw [List.getElem?_map, hA]; rfl
      have ht := flatten_drop_take _ Nt hlen i tr.trace hL
      have hge : Nt ≤ ((A.map (fun tr => tr.trace)).flatten.drop (i * Nt)).length := by
        have := congrArg List.length ht
        rw [List.length_take, hlen tr.trace (List.mem_of_getElem? hL)] at this
        omega
      have := SourceScreen.setBuffer_take (FieldTrace.new tr.t0 dt Nt) (new_WF _ _ _) _ hge
      dsimp only
      rw [show (FieldTrace.new tr.t0 dt Nt).N = Nt from rfl] at this
      rw [this, ht]
      simp only [Option.getD_some, Except.ok.injEq]
      ext
      · rfl
      · exact htr.2.2.symm
      · exact htr.2.1.symm
      · rfl
  rw [mapM_ok_map _ _ _ key]
  congr 1
  apply List.ext_getElem?
  intro i
  rw [List.getElem?_map, List.getElem?_zipIdx, List.getElem?_map]
  cases hA : A[i]? with
  | none => rfl
  | some tr => simp [hA]

end Mesh

/-- the contents of the file written -/
theorem Mesh.writeFile_ok (m : Mesh) (h : m.WellSampled) (hs : m.Np * m.Nt * 6 < 2 ^ 31) :
    m.writeFile = .ok { Ncp := some m.Ncp, corners := m.corners, Np := some m.Np, points := m.points, triangles := some m.triangles, time := some { Nt := some m.Nt, dt := some m.dt, t0 := m.A.map (fun tr => tr.t0) }, field := some (m.A.map (fun tr => tr.trace)).flatten } := by
  obtain ⟨h1, h2, h3, h4, h5⟩ := h
  have hlen : ∀ l ∈ m.A.map (fun tr => tr.trace), l.length = m.Nt := by
    intro l hl
    obtain ⟨tr, htr, rfl⟩ := List.mem_map.mp hl
    exact (h5 tr htr).1.trans (h5 tr htr).2.1
  have hfs : m.A.mapM (fun tr => (List.range tr.N).mapM tr.getField) = .ok (m.A.map (fun tr => tr.trace)) := by
    apply mapM_ok_map
    intro tr htr
    have := tr.getBuffer_eq (h5 tr htr).1
    unfold FieldTrace.getBuffer at this
    rw [if_neg (by simp)] at this
    exact this
  have hfl : (m.A.map (fun tr => tr.trace)).flatten.length = m.Np * m.Nt := by rw [flatten_length _ m.Nt hlen, List.length_map, h4]
  unfold Mesh.writeFile
  have e1 := mapM_range_vecAt m.corners
  have e2 := mapM_range_vecAt m.points
  have e3 := mapM_range_vecAt m.triangles
  have e4 := mapM_range_vecAt m.A
  rw [h1] at e1; rw [h2] at e2; rw [h3] at e3; rw [h4] at e4
  rw [e1]
  simp only [bind, Except.bind]
  rw [e2]
  dsimp only
  rw [e3]
  dsimp only
  rw [e4]
  dsimp only
  rw [if_neg (by omega)]
  rw [hfs]
  dsimp only
  rw [if_neg (by omega)]
  rfl

/-- C73: writing a meshed screen to a file and creating a screen from that file reproduces the mesh, its triangles, the
observation points, the timing and all fields, as long as the number of values to be written can be represented. -/
theorem C73_round_trip (m : Mesh) (h : m.WellSampled) (hs : m.Np * m.Nt * 6 < 2 ^ 31) :
    ∃ f, m.writeFile = .ok f ∧ Mesh.ofFile f = .ok m := by
  refine ⟨_, Mesh.writeFile_ok m h hs, ?_⟩
  obtain ⟨h1, h2, h3, h4, h5⟩ := h
  unfold Mesh.ofFile Mesh.readTiming
  simp only [SourceScreen.required, bind, Except.bind]
  have r1 : readInto (0 : Vec) m.Ncp m.corners = .ok m.corners := by rw [← h1]; exact readInto_full _ _
  have r2 : readInto (0 : Vec) m.Np m.points = .ok m.points := by rw [← h2]; exact readInto_full _ _
  have r3 : readRaw m.Np m.triangles = .ok m.triangles := by rw [← h3]; exact readRaw_full _
  have r4 : readRaw m.Np (m.A.map (fun tr => tr.t0)) = .ok (m.A.map (fun tr => tr.t0)) := by
    rw [← h4]
    have := readRaw_full (m.A.map (fun tr => tr.t0))
    rwa [List.length_map] at this
  have r5 := readFields_of m.Nt m.dt m.A h5 (by rw [h4]; omega)
  rw [h4] at r5
  rw [r1]
  dsimp only
  rw [r2]
  dsimp only
  rw [r3]
  dsimp only
  rw [r4]
  simp only [pure, Except.pure, List.map_map]
  rw [show ((fun t0 => FieldTrace.new t0 m.dt m.Nt) ∘ fun tr : FieldTrace => tr.t0) = (fun tr => FieldTrace.new tr.t0 m.dt m.Nt) from rfl, r5]

/-- C73: every screen created from a file has the numbers of points, cells and samples announced in the file, in the form
required by the theorem above; it holds the corner points, positions, triangles and start times of the file; without a
field dataset all fields are zero, without timing there are no samples. -/
theorem C73_created (f : MeshFile) (m : Mesh) (h : Mesh.ofFile f = .ok m) :
    m.WellSampled ∧ f.Ncp = some m.Ncp ∧ f.Np = some m.Np ∧ f.triangles = some m.triangles ∧
    (∃ z, m.corners = f.corners ++ z ∧ ∀ v ∈ z, v = 0) ∧ (∃ z, m.points = f.points ++ z ∧ ∀ v ∈ z, v = 0) ∧
    (f.time = none → m.Nt = 0) ∧
    (∀ tm, f.time = some tm → tm.Nt = some m.Nt ∧ tm.dt = some m.dt ∧ m.A.map (fun tr => tr.t0) = tm.t0) ∧
    (f.field = none → ∀ tr ∈ m.A, ∀ F ∈ tr.trace, F = 0) := by
  unfold Mesh.ofFile at h
  simp only [bind, Except.bind, pure, Except.pure] at h
  cases hNcp : f.Ncp with
  | none => rw [hNcp] at h; cases h
  | some Ncp =>
  rw [hNcp] at h
  simp only [SourceScreen.required] at h
  cases hcor : readInto (0 : Vec) Ncp f.corners with
  | error e => rw [hcor] at h; cases h
  | ok corners =>
  rw [hcor] at h
  dsimp only at h
  cases hNp : f.Np with
  | none => rw [hNp] at h; cases h
  | some Np =>
  rw [hNp] at h
  dsimp only at h
  cases hpts : readInto (0 : Vec) Np f.points with
  | error e => rw [hpts] at h; cases h
  | ok points =>
  rw [hpts] at h
  dsimp only at h
  cases htri : f.triangles with
  | none => rw [htri] at h; cases h
  | some tris =>
  rw [htri] at h
  dsimp only at h
  cases hraw : readRaw Np tris with
  | error e => rw [hraw] at h; cases h
  | ok triangles =>
  rw [hraw] at h
  dsimp only at h
  cases htm : readTiming Np f.time with
  | error e => rw [htm] at h; cases h
  | ok tm =>
  obtain ⟨Nt, dt, A0⟩ := tm
  rw [htm] at h
  dsimp only at h
  cases hfd : readFields Np Nt A0 f.field with
  | error e => rw [hfd] at h; cases h
  | ok A =>
  rw [hfd] at h
  obtain rfl := Except.ok.inj h
  obtain ⟨hrl, rfl⟩ := readRaw_ok hraw
  have hpad : ∀ {n : Nat} {data l : List Vec}, readInto (0 : Vec) n data = .ok l → ∃ z, l = data ++ z ∧ ∀ v ∈ z, v = 0 := by
    intro n data l hh
    unfold readInto at hh
    split at hh
    · obtain rfl := Except.ok.inj hh
      exact ⟨_, rfl, fun v hv => List.eq_of_mem_replicate hv⟩
    · cases hh
  -- the traces before the fields are read
  have hA0 : A0.length = Np ∧ (∀ tr ∈ A0, tr.WF ∧ tr.N = Nt ∧ tr.dt = dt ∧ ∀ F ∈ tr.trace, F = 0) ∧ (f.time = none → Nt = 0) ∧
      (∀ tm, f.time = some tm → tm.Nt = some Nt ∧ tm.dt = some dt ∧ A0.map (fun tr => tr.t0) = tm.t0) := by
    unfold readTiming at htm
    cases htime : f.time with
    | none =>
      rw [htime] at htm
      simp only [Except.ok.injEq, Prod.mk.injEq] at htm
      obtain ⟨rfl, rfl, rfl⟩ := htm
      refine ⟨by simp, ?_, fun _ => rfl, fun tm e => by cases e⟩
      intro tr htr
      obtain rfl := List.eq_of_mem_replicate htr
      exact ⟨new_WF _ _ _, rfl, rfl, fun F hF => List.eq_of_mem_replicate hF⟩
    | some tm =>
      rw [htime] at htm
      simp only [bind, Except.bind, pure, Except.pure] at htm
      cases hNt : tm.Nt with
      | none => rw [hNt] at htm; cases htm
      | some Nt' =>
      rw [hNt] at htm
      simp only [SourceScreen.required] at htm
      cases hdt : tm.dt with
      | none => rw [hdt] at htm; cases htm
      | some dt' =>
      rw [hdt] at htm
      dsimp only at htm
      cases ht0 : readRaw Np tm.t0 with
      | error e => rw [ht0] at htm; cases htm
      | ok t0s =>
      rw [ht0] at htm
      simp only [Except.ok.injEq, Prod.mk.injEq] at htm
      obtain ⟨rfl, rfl, rfl⟩ := htm
      obtain ⟨hl0, rfl⟩ := readRaw_ok ht0
      refine ⟨by simpa using hl0, ?_, fun e => (by cases e), ?_⟩
      · intro tr htr
        obtain ⟨t0, -, rfl⟩ := List.mem_map.mp htr
        exact ⟨new_WF _ _ _, rfl, rfl, fun F hF => List.eq_of_mem_replicate hF⟩
      · intro tm' e
        obtain rfl := Option.some.inj e
        refine ⟨hNt, hdt, ?_⟩
        rw [List.map_map]
        exact List.map_id _
  -- the traces after the fields are read
  have hA : A.length = Np ∧ (∀ tr ∈ A, tr.WF ∧ tr.N = Nt ∧ tr.dt = dt) ∧ A.map (fun tr => tr.t0) = A0.map (fun tr => tr.t0) ∧ (f.field = none → A = A0) := by
    unfold readFields at hfd
    cases hfield : f.field with
    | none =>
      rw [hfield] at hfd
      obtain rfl := Except.ok.inj hfd
      exact ⟨hA0.1, fun tr htr => ⟨(hA0.2.1 tr htr).1, (hA0.2.1 tr htr).2.1, (hA0.2.1 tr htr).2.2.1⟩, rfl, fun _ => rfl⟩
    | some data =>
      rw [hfield] at hfd
      simp only [bind, Except.bind] at hfd
      split at hfd
      · cases hfd
      · cases hbuf : readInto (0 : EMField) (Np * Nt) data with
        | error e => rw [hbuf] at hfd; cases hfd
        | ok buf =>
        rw [hbuf] at hfd
        dsimp only at hfd
        have hl := (mapM_except_length hfd).1
        rw [List.length_zipIdx] at hl
        have hget : ∀ (i : Nat) (s : FieldTrace), A0[i]? = some s → ∃ r, A[i]? = some r ∧ r.WF ∧ r.N = Nt ∧ r.dt = dt ∧ r.t0 = s.t0 := by
          intro i s hs
          obtain ⟨r, hr, hr'⟩ := mapM_get hfd i (s, i) (by rw [List.getElem?_zipIdx, hs]; simp)
          have hs0 := hA0.2.1 s (List.mem_of_getElem? hs)
          dsimp only at hr
          have hN := hs0.2.1
          rw [← hN] at hr
          obtain ⟨hb, rfl⟩ := SourceScreen.setBuffer_ok hs0.1 hr
          refine ⟨_, hr', ?_, hs0.2.1, hs0.2.2.1, rfl⟩
          unfold FieldTrace.WF
          dsimp only
          rw [List.length_take]
          omega
        refine ⟨hl.trans hA0.1, ?_, ?_, fun e => by cases e⟩
        · intro tr htr
          obtain ⟨i, hi, rfl⟩ := List.mem_iff_getElem.mp htr
          obtain ⟨r, hr, h1, h2, h3, -⟩ := hget i A0[i] (List.getElem?_eq_getElem (by omega))
          rw [List.getElem?_eq_getElem hi] at hr
          obtain rfl := Option.some.inj hr
          exact ⟨h1, h2, h3⟩
        · apply List.ext_getElem?
          intro i
          rw [List.getElem?_map, List.getElem?_map]
          cases hs : A0[i]? with
          | none =>
            rw [List.getElem?_eq_none (by rw [hl]; exact List.getElem?_eq_none_iff.mp hs)]
          | some s =>
            obtain ⟨r, hr, -, -, -, h4⟩ := hget i s hs
            rw [hr]
            simp [h4]
  refine ⟨⟨readInto_ok hcor, readInto_ok hpts, hrl, hA.1, hA.2.1⟩, rfl, rfl, rfl, hpad hcor, hpad hpts, hA0.2.2.1, ?_, ?_⟩
  · intro tm e
    obtain ⟨e1, e2, e3⟩ := hA0.2.2.2 tm e
    exact ⟨e1, e2, hA.2.2.1.trans e3⟩
  · intro e tr htr
    rw [hA.2.2.2 e] at htr
    exact (hA0.2.1 tr htr).2.2.2

/-- the hypotheses are met: one cell with two samples -/
example : ∃ (m : Mesh) (f : MeshFile), m.WellSampled ∧ m.writeFile = .ok f ∧ Mesh.ofFile f = .ok m ∧
    m.A.map (fun tr => tr.trace) = [[⟨⟨1, 0, 0⟩, ⟨0, -1, 0⟩⟩, 0]] := by
  let tr : FieldTrace := ⟨3, 1 / 2, 2, [⟨⟨1, 0, 0⟩, ⟨0, -1, 0⟩⟩, 0]⟩
  let m : Mesh := { oneTriangle 0 ⟨0, 1, 0⟩ ⟨1, 0, 0⟩ with Nt := 2, dt := 1 / 2, A := [tr] }
  have hw : m.WellSampled := by
    refine ⟨rfl, rfl, rfl, rfl, ?_⟩
    intro t ht
    have ht' : t = tr := by simpa [m] using ht
    subst ht'
    exact ⟨rfl, rfl, rfl⟩
  obtain ⟨f, h1, h2⟩ := C73_round_trip m hw (by show 1 * 2 * 6 < 2 ^ 31; norm_num)
  exact ⟨m, f, hw, h1, h2, rfl⟩

end Teufel
