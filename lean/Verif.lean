import Verif.Props.Accuracy
import Verif.Props.Async
import Verif.Props.Bits
import Verif.Props.CApi
import Verif.Props.Calls
import Verif.Props.Convolution
import Verif.Props.Cost
import Verif.Props.Device
import Verif.Props.DeviceVector
import Verif.Props.Exec
import Verif.Props.FloatCalls
import Verif.Props.FloatConv
import Verif.Props.FloatTrig
import Verif.Props.Fortran
import Verif.Props.Geometry
import Verif.Props.Gpu
import Verif.Props.Grids
import Verif.Props.Inner
import Verif.Props.Laws
import Verif.Props.Library
import Verif.Props.Mpi
import Verif.Props.OwnSpeed
import Verif.Props.Pack
import Verif.Props.Plan
import Verif.Props.PlanInt
import Verif.Props.PlanVars
import Verif.Props.Python
import Verif.Props.R2R
import Verif.Props.RealEnergy
import Verif.Props.Reshape
import Verif.Props.ReshapeInt
import Verif.Props.Simd
import Verif.Props.Speed
import Verif.Props.Stock
import Verif.Props.Tags
import Verif.Props.Tails
import Verif.Props.Threads
import Verif.Props.Trace
import Verif.Props.Transform
import Verif.Props.TransformInt
import Verif.Props.TrigLaws
import Verif.Props.Vector
import Verif.Props.Vendor
import Verif.Props.Volume
import Verif.Props.Wave
import Verif.Axioms
