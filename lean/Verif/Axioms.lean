import Lean.Util.CollectAxioms
import Lean.Elab.Command
import Verif.Props.Totality
import Verif.Props.Lexical
import Verif.Props.Types
import Verif.Props.Exprs
import Verif.Props.Statements
import Verif.Props.Binaries
import Verif.Props.Trailing
import Verif.Props.Starts
import Verif.Props.Reindent
import Verif.Props.Output
import Verif.Props.Cost
import Verif.Props.Printed
import Verif.Props.Report
import Verif.Props.Bound
import Verif.Props.TypeCost
import Verif.Props.Depth
import Verif.Props.Size
import Verif.Props.Tokens
import Verif.Props.Layout
import Verif.Props.Alphabet
import Verif.Props.Pieces
import Verif.Props.Shown
import Verif.Props.Rename
import Verif.Props.Agree
import Verif.Props.Spacing
import Verif.Props.Munch
import Verif.Props.Exact
import Verif.Props.Linear
import Verif.Props.TypeLinear
import Verif.Props.Regex
import Verif.Props.Walk
import Verif.Props.ValidCost
import Verif.Props.Order
import Verif.Props.Unique
import Verif.Props.Bytes
import Verif.Props.Scan
import Verif.Props.Blocks
import Verif.Props.Spans
import Verif.Props.Indent
import Verif.Props.Replace
import Verif.Props.Typos
import Verif.Props.Shield
import Verif.Props.Offside
import Verif.Props.Rearrange
import Verif.Props.Header
import Verif.Props.Topline
import Verif.Props.Parts
import Verif.Props.TypeHeader
import Verif.Props.Chunks
import Verif.Props.Assembled
import Verif.Props.Effort
import Verif.Props.Additive
import Verif.Props.Culprit
import Verif.Props.Wasted

/-! Every theorem of the model depends only on the three standard axioms; the build fails otherwise. -/
open Lean Elab Command

run_cmd
  let env ← getEnv
  let allowed := [``propext, ``Classical.choice, ``Quot.sound]
  let mut n := 0
  for (name, info) in env.constants.map₁.toList do
    if (`ElmParser).isPrefixOf name && info matches .thmInfo _ then
      n := n + 1
      for a in ← liftCoreM (collectAxioms name) do
        unless allowed.contains a do throwError "{name} depends on {a}"
  if n == 0 then throwError "no theorems"
