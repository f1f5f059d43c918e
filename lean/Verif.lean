import Verif.Model.Statements
import Verif.Tests
import Verif.Spec.Lex
import Verif.Proofs.Basic
import Verif.Proofs.Total
import Verif.Proofs.Unfold
import Verif.Proofs.Loops
import Verif.Proofs.Lex
import Verif.Proofs.Gap
import Verif.Proofs.Steps
import Verif.Proofs.TypeSound
import Verif.Proofs.TypeComplete
import Verif.Spec.Types
import Verif.Spec.Exprs
import Verif.Proofs.ExprSound
import Verif.Props.Totality
import Verif.Props.Lexical
import Verif.Props.Types
import Verif.Proofs.ExprWF
import Verif.Proofs.ExprFollow
import Verif.Proofs.ExprTerms
import Verif.Proofs.ExprComplete
import Verif.Proofs.ExprText
import Verif.Spec.Names
import Verif.Proofs.Names
import Verif.Props.Exprs
import Verif.Spec.Statements
import Verif.Proofs.StmtSound
import Verif.Proofs.StmtFollow
import Verif.Proofs.StmtComplete
import Verif.Proofs.StmtOrder
import Verif.Proofs.StmtText
import Verif.Spec.StmtNames
import Verif.Proofs.StmtNames
import Verif.Props.Statements
import Verif.Model.Binaries
import Verif.Props.Binaries
import Verif.Proofs.Trail
import Verif.Props.Trailing
import Verif.Props.Starts
import Verif.Spec.Reindent
import Verif.Proofs.Reindent
import Verif.Spec.Alphabet
import Verif.Proofs.Alphabet
import Verif.Props.Reindent
import Verif.Model.Debug
import Verif.Proofs.Debug
import Verif.Proofs.DebugAst
import Verif.Props.Output
import Verif.Model.Trace
import Verif.Proofs.Trace
import Verif.Props.Cost
import Verif.Proofs.Printed
import Verif.Props.Printed
import Verif.Proofs.Bound
import Verif.Props.Report
import Verif.Props.Bound
import Verif.Props.TypeCost
import Verif.Proofs.Depth
import Verif.Proofs.Nest
import Verif.Props.Depth
import Verif.Props.Size
import Verif.Props.Tokens
import Verif.Props.Layout
import Verif.Props.Alphabet
import Verif.Props.Pieces
import Verif.Props.Shown
import Verif.Props.Rename
import Verif.Props.Agree
import Verif.Props.Spacing
import Verif.Props.Munch
import Verif.Props.Exact
import Verif.Proofs.Linear
import Verif.Proofs.LinearFile
import Verif.Props.Linear
import Verif.Props.TypeLinear
import Verif.Props.Regex
import Verif.Props.Walk
import Verif.Props.ValidCost
import Verif.Proofs.Choice
import Verif.Proofs.StmtChoice
import Verif.Proofs.TermChoice
import Verif.Props.Order
import Verif.Props.Unique
import Verif.Props.Bytes
import Verif.Props.Scan
import Verif.Props.Blocks
import Verif.Props.Spans
import Verif.Props.Indent
import Verif.Props.Replace
import Verif.Props.Typos
import Verif.Props.Shield
import Verif.Props.Offside
import Verif.Props.Rearrange
import Verif.Props.Header
import Verif.Props.Topline
import Verif.Props.Parts
import Verif.Props.TypeHeader
import Verif.Props.Chunks
import Verif.Props.Assembled
import Verif.Props.Effort
import Verif.Props.Additive
import Verif.Props.Culprit
import Verif.Props.Wasted
import Verif.Axioms
import Verif.Findings
