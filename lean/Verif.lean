import Verif.Props.Vec
import Verif.Props.Tools
import Verif.Props.Matrix
import Verif.Props.Charpoly
import Verif.Props.Poly
import Verif.Props.SolveSystem
import Verif.Props.DeRham
import Verif.Props.Paths
import Verif.Props.Batch
import Verif.Props.Cache
import Verif.Props.Frob
import Verif.Props.FrobMatrix
import Verif.Props.ND
import Verif.Props.Smooth
import Verif.Props.Picard
import Verif.Props.Memory
import Verif.Props.Text
import Verif.Props.Save
import Verif.Model.SaveND
import Verif.Props.SaveND
import Verif.Model.SelfTest
import Verif.Lemmas.SelfTest
import Verif.Props.SelfTest
import Verif.Props.Zeta
import Verif.Props.FiniteDiff
import Verif.Props.NDBatch
import Verif.Props.FrobND
import Verif.Props.FrobMatrixND
import Verif.Props.CacheND
import Verif.Props.FrozenND
import Verif.Props.CacheFrob
import Verif.Spec.Threads
import Verif.Model.Threads
import Verif.Model.ThreadsFrob
import Verif.Lemmas.Threads
import Verif.Lemmas.ThreadsJ
import Verif.Lemmas.ThreadsFrob
import Verif.Props.Threads
import Verif.Props.ThreadsFrob
import Verif.Spec.Init
import Verif.Model.Construct
import Verif.Lemmas.CompleteInt
import Verif.Lemmas.HilbertFn
import Verif.Lemmas.InitSucceeds
import Verif.Lemmas.Construct
import Verif.Props.Construct
import Verif.Spec.Scaled
import Verif.Lemmas.Scaled
import Verif.Model.Pipeline
import Verif.Spec.Pipeline
import Verif.Lemmas.Pipeline
import Verif.Props.Pipeline
import Verif.Props.Unique
import Verif.Lemmas.Lower
import Verif.Props.Precision
import Verif.Model.Programs
import Verif.Lemmas.Programs
import Verif.Props.ProgramText
import Verif.Props.Programs
import Verif.Props.Dwork
import Verif.Model.Display
import Verif.Spec.Python
import Verif.Lemmas.Display
import Verif.Props.Display
import Verif.Spec.Lift
import Verif.Lemmas.Lift
import Verif.Props.Lift
import Verif.Model.DrawPaths
import Verif.Lemmas.DrawPaths
import Verif.Props.DrawPaths
import Verif.Model.TestPrograms
import Verif.Spec.TestPrograms
import Verif.Lemmas.TestPrograms
import Verif.Props.TestPrograms
import Verif.Spec.Digits
import Verif.Lemmas.Digits
import Verif.Lemmas.TwoPoints
import Verif.Props.Digits
import Verif.Lemmas.Horner
import Verif.Model.TestK3
import Verif.Spec.TestK3
import Verif.Lemmas.TestK3
import Verif.Props.Terms
import Verif.Model.PolyI64
import Verif.Lemmas.PolyI64
import Verif.Props.PolyI64
import Verif.Model.Float
import Verif.Spec.Float
import Verif.Lemmas.Float
import Verif.Props.Float
import Verif.Spec.CharDigits
import Verif.Lemmas.CharDigits
import Verif.Props.CharDigits
import Verif.Props.TestK3
import Verif.Lemmas.CharpolyFrobSource
import Verif.Lemmas.ExampleQuartics
import Verif.Model.Examples
import Verif.Spec.Examples
import Verif.Props.ZetaRun
import Verif.Props.Examples
import Verif.Props.ManyDigits
import Verif.Model.Conv
import Verif.Model.Timing
import Verif.Props.Conv
import Verif.Model.SolveWords
import Verif.Props.SolveWords
import Verif.Props.Guards
import Verif.Spec.SolveUnique
import Verif.Lemmas.SolveUnique
import Verif.Props.SolveUnique
import Verif.Lemmas.FermatRun
import Verif.Lemmas.FermatRun7
import Verif.Lemmas.FermatRun17
import Verif.Props.FlintRun
import Verif.Props.Independent
import Verif.Model.NDWords
import Verif.Lemmas.NDWords
import Verif.Props.NDWords
import Verif.Model.FrobWords
import Verif.Props.FrobWords
import Verif.Lemmas.PolyCongr
import Verif.Lemmas.CertSolver
import Verif.Lemmas.FlintOK
import Verif.Lemmas.CubicTable
import Verif.Lemmas.CubicRun
import Verif.Props.CubicRun
import Verif.Model.Workers
import Verif.Props.Workers
import Verif.Model.ZetaThreads
import Verif.Props.ZetaThreads
import Verif.Props.ProgramThreads
import Verif.Lemmas.SamePoly
import Verif.Props.SamePoly
import Verif.Props.FrobCubic
import Verif.Model.FrobI64
import Verif.Lemmas.FrobI64
import Verif.Props.FrobI64
import Verif.Model.FrobJI64
import Verif.Lemmas.FrobJI64
import Verif.Props.FrobJI64
import Verif.Model.ZetaI64
import Verif.Props.ZetaI64
import Verif.Props.OverflowI64
import Verif.Model.ZetaRange
import Verif.Props.ZetaRange
