import Verif.Outcome
import Verif.Model.Ids
import Verif.Lemmas.Ids
import Verif.Props.Ids
import Verif.Model.Material
import Verif.Lemmas.Material
import Verif.Props.Material
import Verif.Model.Container
import Verif.Model.Layout
import Verif.Lemmas.Layout
import Verif.Spec.Container
import Verif.Lemmas.Container
import Verif.Props.Layout
import Verif.Props.Container
import Verif.Model.Tensor
import Verif.Model.Geometry
import Verif.Lemmas.Tensor
import Verif.Lemmas.Geometry
import Verif.Props.Geometry
import Verif.Spec.Geometry
import Verif.Model.Linear
import Verif.Lemmas.Linear
import Verif.Props.Linear
import Verif.Model.Integrate
import Verif.Spec.Integrate
import Verif.Lemmas.Integrate
import Verif.Props.Integrate
import Verif.Model.Composite
import Verif.Spec.Composite
import Verif.Lemmas.Composite
import Verif.Props.Composite
import Verif.Model.Transform
import Verif.Props.Transform
import Verif.Model.TFT
import Verif.Model.RootFind
import Verif.Lemmas.RootFind
import Verif.Props.RootFind
import Verif.Spec.TFT
import Verif.Lemmas.TFT
import Verif.Lemmas.TFTTangent
import Verif.Props.TFT
import Verif.Lemmas.TFTWitness
import Verif.Props.TFTTangent
import Verif.Lemmas.TFTTheta
import Verif.Props.TFTTheta
import Verif.Model.Hyper
import Verif.Spec.Hyper
import Verif.Lemmas.Hyper
import Verif.Props.HyperIncompressible
import Verif.Props.HyperCompressible
import Verif.Props.HyperReference
import Verif.Model.Newton
import Verif.Lemmas.Newton
import Verif.Props.Newton
import Verif.Model.Spectral
import Verif.Spec.Spectral
import Verif.Lemmas.SpectralFrame
import Verif.Lemmas.SpectralDeriv
import Verif.Props.SpectralEnergy
import Verif.Lemmas.SpectralProj
import Verif.Props.SpectralTangent
import Verif.Lemmas.SpectralAgree
import Verif.Props.SpectralAgree
import Verif.Model.StressFun
import Verif.Model.FunSum
import Verif.Lemmas.FunSum
import Verif.Props.StressFun
import Verif.Props.FunSum
import Verif.Model.Variation
import Verif.Spec.Variation
import Verif.Lemmas.Variation
import Verif.Lemmas.Boundary
import Verif.Props.Variation
import Verif.Props.Boundary
import Verif.Props.StrainVariation
import Verif.Model.Loads
import Verif.Spec.Loads
import Verif.Lemmas.Loads
import Verif.Props.Loads
import Verif.Model.Assembler
import Verif.Spec.Assembler
import Verif.Lemmas.Assembler
import Verif.Props.Assembler
import Verif.Spec.Interfaces
import Verif.Lemmas.Interfaces
import Verif.Props.Interfaces
import Verif.Model.WeakForms
import Verif.Spec.WeakForms
import Verif.Lemmas.WeakForms
import Verif.Lemmas.WeakCoupling
import Verif.Props.WeakForms
import Verif.Props.WeakCoupling
import Verif.Model.Solution
import Verif.Spec.Solution
import Verif.Lemmas.Solution
import Verif.Props.Solution
import Verif.Model.Queries
import Verif.Spec.Queries
import Verif.Lemmas.Queries
import Verif.Props.Queries
import Verif.Model.DWR
import Verif.Spec.DWR
import Verif.Lemmas.DWR
import Verif.Lemmas.DWR2
import Verif.Lemmas.DWR3
import Verif.Props.DWR
import Verif.Model.DWRError
import Verif.Spec.DWRError
import Verif.Lemmas.DWRError
import Verif.Props.DWRError
import Verif.Model.DWREigen
import Verif.Spec.DWREigen
import Verif.Lemmas.DWREigen
import Verif.Props.DWREigen
import Verif.Model.DWRObject
import Verif.Spec.DWRObject
import Verif.Lemmas.DWRObject
import Verif.Props.DWRObject
import Verif.Model.Dirichlet
import Verif.Spec.Dirichlet
import Verif.Lemmas.Dirichlet
import Verif.Props.Dirichlet
import Verif.Spec.GeometryField
import Verif.Lemmas.GeometryField
import Verif.Props.GeometryField
import Verif.Model.Balance
import Verif.Spec.Balance
import Verif.Lemmas.Balance
import Verif.Props.Balance
import Verif.Model.Principal
import Verif.Spec.Principal
import Verif.Lemmas.Principal
import Verif.Props.Principal
import Verif.Model.Outputs
import Verif.Spec.Outputs
import Verif.Props.Outputs
import Verif.Model.Explicit
import Verif.Spec.Explicit
import Verif.Lemmas.Explicit
import Verif.Props.Explicit
import Verif.Model.Deform
import Verif.Spec.Deform
import Verif.Props.Deform
import Verif.Model.TFTSection
import Verif.Lemmas.TFTSection
import Verif.Props.TFTSection
import Verif.Model.Penalty
import Verif.Spec.Penalty
import Verif.Lemmas.Penalty
import Verif.Props.Penalty
import Verif.Model.ExprMat
import Verif.Spec.ExprMat
import Verif.Lemmas.ExprMat
import Verif.Props.ExprMat
import Verif.Spec.SectionForces
import Verif.Lemmas.SectionForces
import Verif.Props.SectionForces
import Verif.Model.DMatrix
import Verif.Spec.DMatrix
import Verif.Lemmas.DMatrix
import Verif.Props.DMatrix
import Verif.Model.DPoints
import Verif.Spec.DPoints
import Verif.Lemmas.DPoints
import Verif.Props.DPoints
import Verif.Model.Shortcut
import Verif.Spec.Shortcut
import Verif.Lemmas.Shortcut
import Verif.Props.Shortcut
import Verif.Model.ShellTangent
import Verif.Spec.ShellTangent
import Verif.Lemmas.ShellTangent
import Verif.Props.ShellTangent
import Verif.Spec.Reparam
import Verif.Lemmas.Reparam
import Verif.Props.Reparam
import Verif.Model.Planar
import Verif.Spec.Planar
import Verif.Lemmas.Planar
import Verif.Props.Planar
import Verif.Spec.PosDef
import Verif.Lemmas.PosDef
import Verif.Props.PosDef
import Verif.Lemmas.PlaneStress
import Verif.Props.PlaneStress
import Verif.Model.Project
import Verif.Lemmas.Project
import Verif.Props.Project
import Verif.Spec.Benchmark
import Verif.Lemmas.Benchmark
import Verif.Lemmas.BenchmarkState
import Verif.Props.Benchmark
import Verif.Model.System
import Verif.Spec.System
import Verif.Lemmas.System
import Verif.Lemmas.SystemModuli
import Verif.Props.System
import Verif.Model.DWRThreads
import Verif.Lemmas.DWRThreads
import Verif.Props.DWRThreads
import Verif.Model.Field
import Verif.Model.Balloon
import Verif.Spec.Balloon
import Verif.Lemmas.BalloonCalc
import Verif.Lemmas.BalloonPoint
import Verif.Lemmas.Balloon
import Verif.Lemmas.BalloonLaw
import Verif.Lemmas.BalloonExample
import Verif.Props.Balloon
import Verif.Model.Plate
import Verif.Spec.Plate
import Verif.Lemmas.PlateCalc
import Verif.Lemmas.Plate
import Verif.Lemmas.Sine
import Verif.Lemmas.PlateLaw
import Verif.Lemmas.PlateMode
import Verif.Props.Plate
import Verif.Model.Buckling
import Verif.Spec.Buckling
import Verif.Lemmas.Buckling
import Verif.Props.Buckling
import Verif.Lemmas.Wirtinger
import Verif.Spec.Rayleigh
import Verif.Lemmas.Rayleigh
import Verif.Props.Rayleigh
import Verif.Model.Cylinder
import Verif.Spec.Cylinder
import Verif.Lemmas.CylinderPoint
import Verif.Lemmas.CylinderCalc
import Verif.Lemmas.Cylinder
import Verif.Lemmas.CylinderLaw
import Verif.Lemmas.CylinderRing
import Verif.Props.Cylinder
import Verif.Model.Threads
import Verif.Spec.Threads
import Verif.Lemmas.Threads
import Verif.Props.Threads
import Verif.Model.Solve
import Verif.Spec.Solve
import Verif.Lemmas.Solve
import Verif.Props.Solve
import Verif.Model.Examples
import Verif.Spec.Examples
import Verif.Lemmas.Examples
import Verif.Props.Examples
import Verif.Spec.Relaxed
import Verif.Lemmas.Relaxed
import Verif.Lemmas.RelaxedWitness
import Verif.Props.Relaxed
import Verif.Model.TFTSearch
import Verif.Lemmas.TFTSearch
import Verif.Props.TFTSearch
import Verif.Lemmas.TFTInterval
import Verif.Props.TFTInterval
import Verif.Spec.PatchTest
import Verif.Model.PatchTest
import Verif.Lemmas.PatchTest
import Verif.Lemmas.PatchTestLaw
import Verif.Lemmas.PatchTestMore
import Verif.Props.PatchTest
import Verif.Spec.Uniaxial
import Verif.Lemmas.Uniaxial
import Verif.Lemmas.UniaxialLaw
import Verif.Props.Uniaxial
import Verif.Spec.Reaction
import Verif.Lemmas.Reaction
import Verif.Props.Reaction
import Verif.Lemmas.PenaltyLimit
import Verif.Model.PenaltySystem
import Verif.Spec.PenaltySystem
import Verif.Lemmas.PenaltySystem
import Verif.Props.PenaltySystem
import Verif.Model.SameSheet
import Verif.Spec.SameSheet
import Verif.Lemmas.SameSheet
import Verif.Props.SameSheet
import Verif.Model.ShellSystem
import Verif.Spec.ShellSystem
import Verif.Lemmas.LocalNewton
import Verif.Lemmas.ShellSystem
import Verif.Lemmas.ShellSystemLaw
import Verif.Props.ShellSystem
import Verif.Model.PlanarSystem
import Verif.Spec.PlanarSystem
import Verif.Lemmas.PlanarSystem
import Verif.Props.PlanarSystem
import Verif.Model.AtTensor
import Verif.Spec.AtTensor
import Verif.Lemmas.AtTensor
import Verif.Props.AtTensor
import Verif.Model.LoadedShell
import Verif.Spec.LoadedShell
import Verif.Lemmas.LoadedShell
import Verif.Props.LoadedShell
import Verif.Model.DWRShell
import Verif.Spec.DWRShell
import Verif.Lemmas.DWRShell
import Verif.Props.DWRShell
import Verif.Model.HyperShell
import Verif.Spec.HyperShell
import Verif.Lemmas.HyperShell
import Verif.Lemmas.HyperCylinder
import Verif.Props.HyperShell
import Verif.Model.JoinedShell
import Verif.Spec.JoinedShell
import Verif.Lemmas.JoinedShell
import Verif.Props.JoinedShell
import Verif.Model.JointBalance
import Verif.Spec.JointBalance
import Verif.Lemmas.JointBalance
import Verif.Props.JointBalance
import Verif.Model.PenaltyState
import Verif.Spec.PenaltyState
import Verif.Lemmas.PenaltyState
import Verif.Props.PenaltyState
import Verif.Model.HeldShell
import Verif.Spec.HeldShell
import Verif.Lemmas.HeldShell
import Verif.Props.HeldShell
import Verif.Model.JoinedSheet
import Verif.Spec.JoinedSheet
import Verif.Lemmas.Repel
import Verif.Lemmas.Constrained
import Verif.Lemmas.JoinedSheet
import Verif.Props.JoinedSheet
import Verif.Spec.ClampNewton
import Verif.Lemmas.SlowNewton
import Verif.Lemmas.ClampNewton
import Verif.Props.ClampNewton
import Verif.Model.PlaneSheet
import Verif.Spec.PlaneSheet
import Verif.Lemmas.PlaneSheet
import Verif.Props.PlaneSheet
import Verif.Model.PlaneShell
import Verif.Lemmas.PlaneShell
import Verif.Props.PlaneShell
import Verif.Lemmas.Thickness
import Verif.Lemmas.NoisyNewton
import Verif.Lemmas.NoisyLoads
import Verif.Lemmas.ThicknessSheet
import Verif.Props.Thickness
import Verif.Lemmas.ThicknessShell
import Verif.Props.ThicknessShell
import Verif.Model.Wrinkled
import Verif.Spec.Wrinkled
import Verif.Lemmas.Wrinkled
import Verif.Lemmas.WrinkledStrip
import Verif.Props.Wrinkled
import Verif.Model.WrinkledTangent
import Verif.Spec.WrinkledTangent
import Verif.Lemmas.WrinkledLaw
import Verif.Lemmas.WrinkledTangent
import Verif.Lemmas.WrinkledSystem
import Verif.Lemmas.WrinkledSeen
import Verif.Props.WrinkledTangent
import Verif.Spec.TFTSearch
import Verif.Model.BucklingProgram
import Verif.Spec.BucklingProgram
import Verif.Lemmas.BucklingProgram
import Verif.Props.BucklingProgram
import Verif.Model.ModalProgram
import Verif.Spec.ModalProgram
import Verif.Lemmas.ModalProgram
import Verif.Props.ModalProgram
import Verif.Props.BucklingFirst
import Verif.Model.BucklingTable
import Verif.Lemmas.BucklingTable
import Verif.Props.BucklingTable
import Verif.Model.LinearTable
import Verif.Spec.LinearTable
import Verif.Lemmas.LinearTable
import Verif.Props.LinearTable
import Verif.Props.Efficiency
import Verif.Model.ParamText
import Verif.Spec.ParamText
import Verif.Lemmas.ParamText
import Verif.Props.ParamText
import Verif.Model.OgdenReference
import Verif.Spec.OgdenReference
import Verif.Lemmas.OgdenReference
import Verif.Props.OgdenReference
