import Verif.Props.Allocate
import Verif.Props.Answers
import Verif.Props.Arena
import Verif.Props.Averages
import Verif.Props.Bits
import Verif.Props.Check
import Verif.Props.Collect
import Verif.Props.Compact
import Verif.Props.Congruence
import Verif.Props.Containers
import Verif.Props.Decisions
import Verif.Props.Definition
import Verif.Props.Factor
import Verif.Props.Format
import Verif.Props.Joint
import Verif.Props.Kitten
import Verif.Props.Lucky
import Verif.Props.Mode
import Verif.Props.Options
import Verif.Props.Output
import Verif.Props.Parse
import Verif.Props.Phases
import Verif.Props.Print
import Verif.Props.Probe
import Verif.Props.Program
import Verif.Props.ProofWriter
import Verif.Props.Reconstruct
import Verif.Props.Reduce
import Verif.Props.Reluctant
import Verif.Props.Reorder
import Verif.Props.Restart
import Verif.Props.Search
import Verif.Props.Signals
import Verif.Props.Simplify
import Verif.Props.Substitute
import Verif.Props.Sweep
import Verif.Props.Tiers
import Verif.Props.Vivify
import Verif.Props.Walk
import Verif.Props.Whole
import Verif.Props.WholeOutput
import Verif.Audit
