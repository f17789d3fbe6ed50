import Verif.Model.Parser

/-! # Specification: another order of the elements of the lattice -/

namespace Teufel

/-- the input files differ in the order of the elements of the lattice only, and these elements make no definitions -/
def OtherOrder (doc doc' : Xml) : Prop :=
  ∃ root root' before after attrs attrs' l l', doc.child "teufel" = some root ∧ doc'.child "teufel" = some root' ∧
    root.children = before ++ .node "lattice" attrs l :: after ∧ root'.children = before ++ .node "lattice" attrs' l' :: after ∧
    (∀ c ∈ before, c.name ≠ "lattice") ∧ l.Perm l' ∧ ∀ e ∈ l, e.name ≠ "calc" ∧ ∀ c ∈ e.children, c.name ≠ "calc"

end Teufel
