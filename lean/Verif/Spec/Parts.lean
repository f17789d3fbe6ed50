import Verif.Model.Parser
import Verif.Model.Output

/-! # Specification: a beam which is simulated in parts -/

namespace Teufel

/-- an entry of `<beam>` which makes neither definitions nor use of random numbers -/
def PlainEntry (e : Xml) : Prop :=
  (e.name = "particle" ∨ e.name = "SDDS" ∨ e.name = "probe") ∧ ∀ c ∈ e.children, c.name ≠ "calc" ∧ ∀ d ∈ c.children, d.name ≠ "calc"

/-- three input files which are equal except for the beam; the beam of the first one has the entries of the other two -/
def InParts (doc doc1 doc2 : Xml) : Prop :=
  ∃ root root1 root2 before after attrs attrs1 attrs2 l1 l2,
    doc.child "teufel" = some root ∧ doc1.child "teufel" = some root1 ∧ doc2.child "teufel" = some root2 ∧
    root.children = before ++ .node "beam" attrs (l1 ++ l2) :: after ∧
    root1.children = before ++ .node "beam" attrs1 l1 :: after ∧
    root2.children = before ++ .node "beam" attrs2 l2 :: after ∧
    (∀ c ∈ before, c.name ≠ "beam") ∧ ∀ e ∈ l1 ++ l2, PlainEntry e

/-- a watch point file holding the particles of two others, those of the first one before those of the second one -/
inductive JoinedWatch : WatchData → WatchData → WatchData → Prop
  | hdf5 (n n' : Nat) (b b' : List ℝ) : JoinedWatch (.hdf5 (n + n') (b ++ b')) (.hdf5 n b) (.hdf5 n' b')
  | sdds (n n' : Nat) (c c' : ℝ) (r r' : List SddsRow) : JoinedWatch (.sdds (n + n') (c + c') (r ++ r')) (.sdds n c r) (.sdds n' c' r')

end Teufel
