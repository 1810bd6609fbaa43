import Verif.Spec.Library
import Verif.Spec.Command
import Verif.Model.LibText
/-
Specification of the processing of texts through the library (C99).
-/
namespace Spiff.Spec
variable {φ σ E S : Type}

/-- a readable text of one document -/
def SourceDoc (L : CmdLib E S) (src : TextSource) (n : Node E) : Prop := ∃ b, src.data = some b ∧ DocsOf L src.name b [n]

/-- the source is the file of this name (or the standard input) -/
def SourceOf (w : Surroundings) (file : String) (src : TextSource) : Prop := src.name = file ∧ ∃ b, TextOf w file b ∧ src.data = some b

end Spiff.Spec
