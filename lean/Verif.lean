import Verif.Props.Solve
import Verif.Props.Rank
import Verif.Props.Vertex
import Verif.Props.WhiteSpace
import Verif.Props.Numbers
import Verif.Props.Pivoting
import Verif.Props.BasisInverse
import Verif.Props.LURow
import Verif.Props.Permutation
import Verif.Props.Vector
import Verif.Props.MatrixData
import Verif.Props.BoundRow
import Verif.Props.GeneralForm
import Verif.Props.Presolve
import Verif.Props.Network
import Verif.Props.NetworkBasic
import Verif.Props.Number
import Verif.Props.Mps
import Verif.Props.Scale
import Verif.Props.Termination
import Verif.Props.MpsParse
import Verif.Props.ColumnRange
import Verif.Props.Debug
import Verif.Props.Pipeline
import Verif.Props.ScaleSolve
import Verif.Props.PresolveDebug
import Verif.Props.Column
import Verif.Props.RemoveRows
import Verif.Props.Compare
import Verif.Props.DebugForm
import Verif.Props.DebugSame
import Verif.Props.Start
import Verif.Props.MpsDebug
import Verif.Props.PresolveLeft
import Verif.Props.PresolveAgain
import Verif.Props.DebugProper
import Verif.Props.Report
import Verif.Props.Roomy
import Verif.Props.PresolveSteps
import Verif.Props.ScaleOptimal
import Verif.Props.VectorDebug
import Verif.Props.PresolveHash
import Verif.Props.Display
import Verif.Props.DisplayProblem
import Verif.Props.DisplayGroups
import Verif.Props.DisplaySame
import Verif.Props.NumberFloat
import Verif.Props.Agreement
