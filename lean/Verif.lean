import Verif.Lemmas.Base
import Verif.Model.CR
import Verif.Props.GridIndex
import Verif.Props.FD
import Verif.Props.Sphere
import Verif.Props.SphereMath
import Verif.Props.Cheb
import Verif.Props.Grid
import Verif.Props.GridOps
import Verif.Model.Grid
import Verif.Model.ParamRec
import Verif.Model.Field
import Verif.Model.ScalarEom
import Verif.Model.InitialData
import Verif.Props.Kerr
import Verif.Props.Step
import Verif.Props.Diagnostics
import Verif.Props.InitialData
import Verif.Props.Params
import Verif.Model.IO
import Verif.Model.Main
import Verif.Props.Run
import Verif.Props.Files
import Verif.Model.Omp
import Verif.Model.OmpLoops
import Verif.Props.Omp
import Verif.Props.Symmetry
import Verif.Props.Contracts
import Verif.Props.KerrMetric
import Verif.Props.Resolved
import Verif.Props.TimeOrder
import Verif.Props.Launcher
import Verif.Props.Packed
import Verif.Props.Refine
import Verif.Props.Consistency
import Verif.Model.LaunchRun
import Verif.Props.LaunchRun
import Verif.Model.Build
import Verif.Props.Build
import Verif.Lemmas.Fourier
import Verif.Lemmas.Spectral
import Verif.Props.Spectral
import Verif.Props.FilterOrder
import Verif.Model.Lifetime
import Verif.Spec.Lifetime
import Verif.Lemmas.Lifetime
import Verif.Props.Lifetime
import Verif.Model.FP
import Verif.Spec.FP
import Verif.Lemmas.FP
import Verif.Lemmas.FPLib
import Verif.Lemmas.FPSphere
import Verif.Lemmas.FPGrid
import Verif.Lemmas.FPEom
import Verif.Lemmas.FPMats
import Verif.Lemmas.FPRun
import Verif.Lemmas.FPMain
import Verif.Props.FP
import Verif.Spec.FPSum
import Verif.Lemmas.FPSum
import Verif.Props.FPSum
import Verif.Lemmas.RKGlobal
import Verif.Spec.Spherical
import Verif.Props.Spherical
import Verif.Props.Converge
import Verif.Lemmas.Relax
import Verif.Lemmas.FilterLin
import Verif.Spec.Relax
import Verif.Props.Relax
import Verif.Props.TestBuild
import Verif.Lemmas.LaunchShell
import Verif.Lemmas.LaunchJob
import Verif.Props.Cluster
import Verif.Spec.Locality
import Verif.Lemmas.Locality
import Verif.Props.Locality
import Verif.Props.Axisym
import Verif.Props.Uninit
import Verif.Model.Tests
import Verif.Lemmas.Tests
import Verif.Lemmas.TestField
import Verif.Props.Tests
import Verif.Props.JunkGradient
import Verif.Props.TestSphereX
import Verif.Props.TestLines
import Verif.Model.TestGrid
import Verif.Spec.TestGrid
import Verif.Props.TestGrid
import Verif.Spec.Units
import Verif.Lemmas.Twin
import Verif.Lemmas.Rescale
import Verif.Props.Units
import Verif.Spec.Mirror
import Verif.Lemmas.Mirror
import Verif.Lemmas.MirrorInstance
import Verif.Props.Mirror
import Verif.Spec.Modes
import Verif.Lemmas.Modes
import Verif.Props.Modes
import Verif.Lemmas.ModesL
import Verif.Props.ModesL
import Verif.Lemmas.FDTest
import Verif.Props.TestFD
import Verif.Props.TestFilter
import Verif.Props.TestCheb
import Verif.Model.Printf
import Verif.Spec.Decimal
import Verif.Lemmas.Printf
import Verif.Props.Printf
import Verif.Spec.PulseRun
import Verif.Lemmas.PulseRun
import Verif.Props.PulseRun
import Verif.Spec.Azimuth
import Verif.Lemmas.Azimuth
import Verif.Props.Azimuth
import Verif.Spec.Lagrangian
import Verif.Lemmas.Lagrangian
import Verif.Lemmas.RaiseX
import Verif.Props.Lagrangian
import Verif.Props.Scri
import Verif.Props.Clean
import Verif.Props.LaunchFP
import Verif.Props.Log
import Verif.Props.PointsFP
import Verif.Props.Echo
import Verif.Props.Orientation
import Verif.Spec.Parity
import Verif.Props.Parity
import Verif.Spec.Depend
import Verif.Props.Depend
