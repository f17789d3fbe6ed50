import Verif.Props.Calculator

/-!
# C61: how attributes become numbers, and the constants of the calculator
-/

namespace Teufel
namespace Input

/-- **C61** (attributes): an attribute counts as the value of its expression; if it is missing or cannot be evaluated it does not, and counts as zero.
The components of a vector are the attributes `x`, `y` and `z`; an optional number is that of the attribute, if there is one, and else zero. -/
theorem C61_attributes (L : Lib) (env : Env) (el : Xml) (a : String) :
    (∀ s v, el.attr a = some s → L.eval env s = some v → L.num env el a = v) ∧
    (∀ s, el.attr a = some s → L.eval env s = none → L.num env el a = 0) ∧
    (∀ s v, el.attr a = some s → L.eval env s = some v → L.opt env el a = v) ∧
    (el.attr a = none → L.opt env el a = 0) ∧
    (∀ s d, el.attr a = some s → L.intOr el a d = L.asInt s) ∧
    (∀ d, el.attr a = none → L.intOr el a d = d) ∧
    (∀ sx sy sz x y z, el.attr "x" = some sx → el.attr "y" = some sy → el.attr "z" = some sz →
      L.eval env sx = some x → L.eval env sy = some y → L.eval env sz = some z → L.vec env el = ⟨x, y, z⟩) := by
  refine ⟨?_, ?_, ?_, ?_, ?_, ?_, ?_⟩
  · intro s v h1 h2; simp [Lib.num, Xml.value, h1, h2]
  · intro s h1 h2; simp [Lib.num, Xml.value, h1, h2]
  · intro s v h1 h2; simp [Lib.opt, Lib.num, Xml.value, h1, h2]
  · intro h; simp [Lib.opt, h]
  · intro s d h; simp [Lib.intOr, h]
  · intro d h; simp [Lib.intOr, h]
  · intro sx sy sz x y z h1 h2 h3 e1 e2 e3
    simp [Lib.vec, Lib.num, Xml.value, h1, h2, h3, e1, e2, e3]

/-- the hypotheses are met: a vector with calculated components -/
example : exampleLib.vec (fun _ => some 3) (.node "position" [("z", "2*a"), ("x", "1"), ("y", "2")] []) = ⟨1, 2, 6⟩ := by
  refine (C61_attributes exampleLib _ _ "").2.2.2.2.2.2 "1" "2" "2*a" 1 2 6 rfl rfl rfl ?_ ?_ ?_ <;> simp [exampleLib] <;> norm_num

/-- **C61** (integers): where an integer is calculated, it is the integer nearest to the value of the expression (the even one of two);
values which are not in the range of 32 bits are undefined. -/
theorem C61_integers (L : Lib) (env : Env) (el : Xml) (a s : String) (v : ℝ) (h : el.attr a = some s) (hv : L.eval env s = some v) :
    (∀ i : Int, |v - i| < 1 / 2 → -2 ^ 31 ≤ i → i < 2 ^ 31 → L.int env el a = .ok i) ∧
    (∀ i : Int, v = i + 1 / 2 → -2 ^ 31 ≤ i → i + 1 < 2 ^ 31 → ∃ j, L.int env el a = .ok j ∧ j % 2 = 0 ∧ (j = i ∨ j = i + 1)) ∧
    (2 ^ 31 ≤ v ∨ v < -2 ^ 31 - 1 / 2 → L.int env el a = .error .ub) := by
  have he : L.int env el a = toInt32 (crint v) := by simp [Lib.int, Xml.value, h, hv]
  rw [he]
  refine ⟨?_, ?_, ?_⟩
  · intro i hi h1 h2
    have hc : crint v = i := by
      rw [abs_lt] at hi
      rcases le_or_gt (i : ℝ) v with hv' | hv'
      · have hf : ⌊v⌋ = i := Int.floor_eq_iff.mpr ⟨hv', by linarith⟩
        unfold crint
        rw [hf, if_pos (by linarith)]
      · have hf : ⌊v⌋ = i - 1 := Int.floor_eq_iff.mpr ⟨by push_cast; linarith, by push_cast; linarith⟩
        unfold crint
        rw [hf]
        push_cast
        rw [if_neg (by linarith), if_pos (by linarith)]
        ring
    rw [hc, toInt32, if_pos ⟨h1, h2⟩]
  · intro i hi h1 h2
    have hf : ⌊v⌋ = i := Int.floor_eq_iff.mpr ⟨by linarith, by linarith⟩
    have hc : crint v = if i % 2 = 0 then i else i + 1 := by
      unfold crint
      rw [hf, if_neg (by linarith), if_neg (by linarith)]
    rw [hc]
    by_cases hp : i % 2 = 0
    · rw [if_pos hp]
      exact ⟨i, by rw [toInt32, if_pos ⟨h1, by omega⟩], hp, .inl rfl⟩
    · rw [if_neg hp]
      exact ⟨i + 1, by rw [toInt32, if_pos ⟨by omega, h2⟩], by omega, .inr rfl⟩
  · intro hr
    have hc : crint v = ⌊v⌋ ∨ crint v = ⌊v⌋ + 1 := by
      unfold crint
      split_ifs <;> simp
    rw [toInt32, if_neg]
    rintro ⟨h1, h2⟩
    rcases hr with hr | hr
    · have : (2 ^ 31 : Int) ≤ ⌊v⌋ := Int.le_floor.mpr (by push_cast; linarith)
      omega
    · have h3 : crint v < -2 ^ 31 := by
        by_cases hlt : v < -2 ^ 31 - 1
        · have : ⌊v⌋ < -2 ^ 31 - 1 := Int.floor_lt.mpr (by push_cast; linarith)
          omega
        · have hf : ⌊v⌋ = -2 ^ 31 - 1 := Int.floor_eq_iff.mpr ⟨by push_cast; linarith, by push_cast; linarith⟩
          have : crint v = -2 ^ 31 - 1 := by
            unfold crint
            rw [hf]
            push_cast
            rw [if_pos (by linarith)]
          omega
      omega

example : exampleLib.int (fun _ => some 1.2) (.node "watch" [("step", "2*a")] []) "step" = .ok 2 :=
  (C61_integers exampleLib _ _ "step" "2*a" 2.4 rfl (by simp [exampleLib]; norm_num)).1 2 (by rw [abs_lt]; constructor <;> norm_num) (by norm_num) (by norm_num)

/-- **C61** (constants): before anything is defined, the calculator knows the speed of light, the elementary charge, Planck's constant, the rest energy of the electron in eV,
the vacuum permittivity and π, all in SI units, and nothing else. -/
theorem C61_constants (n : String) (v : ℝ) : Lib.predefined n = some v ↔
    (n = "_c" ∧ v = 299792458) ∨ (n = "_e" ∧ v = 1.6021766208e-19) ∨ (n = "_h" ∧ v = 6.62607015e-34) ∨ (n = "_mec2" ∧ v = 510998.9461) ∨
    (n = "_eps0" ∧ v = 8.854187817e-12) ∨ (n = "_pi" ∧ v = Real.pi) := by
  unfold Lib.predefined
  have hc : SpeedOfLight = 299792458 := by norm_num [SpeedOfLight]
  have hm : mecsquared = 510998.9461 := by norm_num [mecsquared]
  split_ifs with h1 h2 h3 h4 h5 h6
  · subst h1; simp [hc, eq_comm]
  · subst h2; simp [ElementaryCharge, eq_comm]
  · subst h3; simp [eq_comm]
  · subst h4; simp [hm, eq_comm]
  · subst h5; simp [EpsNull, eq_comm]
  · subst h6; simp [Pi, eq_comm]
  · simp [h1, h2, h3, h4, h5, h6]

/-- **C61** (first of its name): of several attributes of one name, and of several children of one name, the first one in the file counts. -/
theorem C61_first (n : String) (l1 l2 : List (String × String)) (a s : String) (c1 c2 : List Xml) (c : Xml) :
    ((∀ e ∈ l1, e.1 ≠ a) → ∀ cs, (Xml.node n (l1 ++ (a, s) :: l2) cs).attr a = some s) ∧
    ((∀ e ∈ l1, e.1 ≠ a) → ∀ cs, (Xml.node n l1 cs).attr a = none) ∧
    ((∀ e ∈ c1, e.name ≠ c.name) → ∀ as, (Xml.node n as (c1 ++ c :: c2)).child c.name = some c) ∧
    ((∀ e ∈ c1, e.name ≠ c.name) → ∀ as, (Xml.node n as c1).child c.name = none) := by
  have hl : (∀ e ∈ l1, e.1 ≠ a) → l1.lookup a = none := by
    intro h
    rw [List.lookup_eq_none_iff]
    intro e he
    simpa [bne_iff_ne, ne_comm] using h e he
  refine ⟨?_, ?_, ?_, ?_⟩
  · intro h cs
    simp only [Xml.attr, Xml.attrs]
    rw [List.lookup_append, hl h]
    simp
  · intro h cs
    exact hl h
  · intro h as
    simp only [Xml.child, Xml.children]
    rw [List.find?_append, List.find?_eq_none.mpr (by simpa using h)]
    simp
  · intro h as
    simp only [Xml.child, Xml.children]
    rw [List.find?_eq_none.mpr (by simpa using h)]

example : (Xml.node "pulse" [("b", "0"), ("a", "1"), ("a", "2")] []).attr "a" = some "1" :=
  (C61_first "pulse" [("b", "0")] [("a", "2")] "a" "1" [] [] (.node "x" [] [])).1 (by simp) []

/-- **C61** (column numbers): the column numbers of correlations are the values of the expressions, cut off towards zero; values which are not in the range of
32 bits are undefined. -/
theorem C61_column (L : Lib) (env : Env) (el : Xml) (a s : String) (v : ℝ) (h : el.attr a = some s) (hv : L.eval env s = some v) :
    (∀ i : Int, 0 ≤ i → i ≤ v → v < i + 1 → i < 2 ^ 31 → L.trunc env el a = .ok i) ∧
    (∀ i : Int, i ≤ 0 → v ≤ i → i - 1 < v → -2 ^ 31 ≤ i → L.trunc env el a = .ok i) ∧
    (2 ^ 31 ≤ v ∨ v ≤ -2 ^ 31 - 1 → L.trunc env el a = .error .ub) := by
  have hn : L.num env el a = v := by simp [Lib.num, Xml.value, h, hv]
  unfold Lib.trunc
  rw [hn]
  refine ⟨?_, ?_, ?_⟩
  · intro i h0 h1 h2 h3
    have hi : (0 : ℝ) ≤ i := by exact_mod_cast h0
    rw [if_pos (hi.trans h1), Int.floor_eq_iff.mpr ⟨h1, h2⟩, toInt32, if_pos ⟨by omega, h3⟩]
  · intro i h0 h1 h2 h3
    have hi : (i : ℝ) ≤ 0 := by exact_mod_cast h0
    have hc : ⌈v⌉ = i := Int.ceil_eq_iff.mpr ⟨h2, h1⟩
    have hif : (if 0 ≤ v then ⌊v⌋ else ⌈v⌉) = i := by
      split_ifs with hv0
      · have hv1 : v = 0 := le_antisymm (h1.trans hi) hv0
        rw [hv1] at hc ⊢
        simpa using hc
      · exact hc
    rw [hif, toInt32, if_pos ⟨h3, by omega⟩]
  · rintro (hb | hb)
    · have h0 : (0 : ℝ) ≤ v := le_trans (by norm_num) hb
      have : (2 ^ 31 : Int) ≤ ⌊v⌋ := Int.le_floor.mpr (by push_cast; linarith)
      rw [if_pos h0, toInt32, if_neg (by omega)]
    · have h0 : ¬ (0 : ℝ) ≤ v := by
        intro h0
        have : (0 : ℝ) ≤ -2 ^ 31 - 1 := h0.trans hb
        norm_num at this
      have : ⌈v⌉ ≤ (-2 ^ 31 - 1 : Int) := Int.ceil_le.mpr (by push_cast; linarith)
      rw [if_neg h0, toInt32, if_neg (by omega)]

example : exampleLib.trunc (fun _ => some 1.9) (.node "correlation" [("dep", "2*a")] []) "dep" = .ok 3 :=
  (C61_column exampleLib _ _ "dep" "2*a" 3.8 rfl (by simp [exampleLib]; norm_num)).1 3 (by norm_num) (by norm_num) (by norm_num) (by norm_num)

end Input
end Teufel
