import Verif.Lemmas.ARS
import Verif.Lemmas.Axisym
import Verif.Lemmas.BSeries
import Verif.Lemmas.Compose
import Verif.Lemmas.ComposeEval
import Verif.Lemmas.ComposeOps
import Verif.Lemmas.Config
import Verif.Lemmas.Coords
import Verif.Lemmas.DF.Disk
import Verif.Lemmas.DF.Inversion
import Verif.Lemmas.DF.OM
import Verif.Lemmas.DF.QuasiIso
import Verif.Lemmas.DF.QuasiIsoMoments
import Verif.Lemmas.Dop853
import Verif.Lemmas.DynFric
import Verif.Lemmas.EOM
import Verif.Lemmas.Ellipse
import Verif.Lemmas.Evolved
import Verif.Lemmas.Gauss
import Verif.Lemmas.Impulse
import Verif.Lemmas.LibPhase
import Verif.Lemmas.LibrationRate
import Verif.Lemmas.Mass
import Verif.Lemmas.Orbit
import Verif.Lemmas.OrbitIndex
import Verif.Lemmas.ParallelMap
import Verif.Lemmas.Planar.Disks
import Verif.Lemmas.Planar.Linear
import Verif.Lemmas.Pot.AnyDisk
import Verif.Lemmas.Pot.AnyDiskQuad
import Verif.Lemmas.Pot.AnyDiskSheet
import Verif.Lemmas.Pot.Burkert
import Verif.Lemmas.Pot.DehnenBar
import Verif.Lemmas.Pot.DehnenSpecial
import Verif.Lemmas.Pot.DiskExpansion
import Verif.Lemmas.Pot.DiskExpansionC
import Verif.Lemmas.Pot.DiskExpansionDict
import Verif.Lemmas.Pot.DiskExpansionMass
import Verif.Lemmas.Pot.Ellipsoidal
import Verif.Lemmas.Pot.EllipsoidalC
import Verif.Lemmas.Pot.EllipsoidalMass
import Verif.Lemmas.Pot.EllipsoidalMethods
import Verif.Lemmas.Pot.EllipsoidalProfiles
import Verif.Lemmas.Pot.Ferrers
import Verif.Lemmas.Pot.FlattenedPower
import Verif.Lemmas.Pot.Isochrone
import Verif.Lemmas.Pot.KuzminDisk
import Verif.Lemmas.Pot.KuzminKutuzov
import Verif.Lemmas.Pot.LogarithmicHalo
import Verif.Lemmas.Pot.MiyamotoNagai
import Verif.Lemmas.Pot.MovingObject
import Verif.Lemmas.Pot.Ops
import Verif.Lemmas.Pot.Plummer
import Verif.Lemmas.Pot.PowerSpherical
import Verif.Lemmas.Pot.PowerSphericalCutoff
import Verif.Lemmas.Pot.PseudoIsothermal
import Verif.Lemmas.Pot.RadialProfiles
import Verif.Lemmas.Pot.Ring
import Verif.Lemmas.Pot.SCF
import Verif.Lemmas.Pot.SCFC
import Verif.Lemmas.Pot.SCFCoef
import Verif.Lemmas.Pot.SCFMass
import Verif.Lemmas.Pot.Shells
import Verif.Lemmas.Pot.SoftenedNeedle
import Verif.Lemmas.Pot.Spherical
import Verif.Lemmas.Pot.SpiralArms
import Verif.Lemmas.Pot.SpiralArmsC
import Verif.Lemmas.Pot.SpiralArmsSum
import Verif.Lemmas.Pot.Sum
import Verif.Lemmas.Pot.SurfDens
import Verif.Lemmas.Pot.TwoPower
import Verif.Lemmas.Pot.TwoPowerGeneric
import Verif.Lemmas.Pot.TwoPowerTriaxial
import Verif.Lemmas.Romberg
import Verif.Lemmas.RootSearch
import Verif.Lemmas.RungeKutta
import Verif.Lemmas.SOS
import Verif.Lemmas.SavePickles
import Verif.Lemmas.Smooth
import Verif.Lemmas.SmoothOps
import Verif.Lemmas.SphMotion
import Verif.Lemmas.SplitOrder
import Verif.Lemmas.Splitting
import Verif.Lemmas.StaeckelAngles
import Verif.Lemmas.StaeckelChi
import Verif.Lemmas.StaeckelExample
import Verif.Lemmas.StaeckelMotion
import Verif.Lemmas.StaeckelTurning
import Verif.Lemmas.Stream
import Verif.Lemmas.StreamGap
import Verif.Lemmas.SubstWrappers
import Verif.Lemmas.Symplectic
import Verif.Lemmas.Tilt
import Verif.Lemmas.Trees
import Verif.Lemmas.Wrappers
import Verif.Model.ARS
import Verif.Model.AdiabaticAA
import Verif.Model.Compose
import Verif.Model.Config
import Verif.Model.Conversion
import Verif.Model.Coords
import Verif.Model.DF.Disk
import Verif.Model.DF.Evolved
import Verif.Model.DF.King
import Verif.Model.DF.Marginal
import Verif.Model.DF.OMPower
import Verif.Model.DF.QuasiIso
import Verif.Model.DF.Spherical
import Verif.Model.DF.Stream
import Verif.Model.DF.StreamGap
import Verif.Model.DF.StreamSpray
import Verif.Model.DF.StripTimes
import Verif.Model.Dop853
import Verif.Model.Dop853Tab
import Verif.Model.DynFric
import Verif.Model.EOM
import Verif.Model.Harmonic
import Verif.Model.Impulse
import Verif.Model.Integrators
import Verif.Model.IsochroneAA
import Verif.Model.Jeans
import Verif.Model.MassQuant
import Verif.Model.NFWVirial
import Verif.Model.NonInertial
import Verif.Model.Normalize
import Verif.Model.Orbit
import Verif.Model.OrbitState
import Verif.Model.ParallelMap
import Verif.Model.Planar.Disks
import Verif.Model.Planar.Linear
import Verif.Model.Pot.AdiabaticContraction
import Verif.Model.Pot.AnyDisk
import Verif.Model.Pot.Burkert
import Verif.Model.Pot.DehnenBar
import Verif.Model.Pot.DiskExpansion
import Verif.Model.Pot.Ellipsoidal
import Verif.Model.Pot.ExpTruncNFW
import Verif.Model.Pot.Ferrers
import Verif.Model.Pot.FlattenedPower
import Verif.Model.Pot.Isochrone
import Verif.Model.Pot.KuzminDisk
import Verif.Model.Pot.KuzminKutuzov
import Verif.Model.Pot.LogarithmicHalo
import Verif.Model.Pot.MN3Exponential
import Verif.Model.Pot.MiyamotoNagai
import Verif.Model.Pot.MovingObject
import Verif.Model.Pot.NumDeriv
import Verif.Model.Pot.OblateStaeckel
import Verif.Model.Pot.Ops
import Verif.Model.Pot.Plummer
import Verif.Model.Pot.PowerSpherical
import Verif.Model.Pot.PowerSphericalCutoff
import Verif.Model.Pot.PseudoIsothermal
import Verif.Model.Pot.RadialProfiles
import Verif.Model.Pot.Ring
import Verif.Model.Pot.SCF
import Verif.Model.Pot.SCFC
import Verif.Model.Pot.SCFCoef
import Verif.Model.Pot.Shells
import Verif.Model.Pot.SoftenedNeedle
import Verif.Model.Pot.Spherical
import Verif.Model.Pot.SpiralArms
import Verif.Model.Pot.SubstWrappers
import Verif.Model.Pot.SurfDens
import Verif.Model.Pot.TwoPower
import Verif.Model.Pot.TwoPowerGeneric
import Verif.Model.Pot.TwoPowerTriaxial
import Verif.Model.PotQuant
import Verif.Model.Reduce
import Verif.Model.RootSearch
import Verif.Model.RungeKutta
import Verif.Model.SOS
import Verif.Model.SavePickles
import Verif.Model.SphericalAA
import Verif.Model.StaeckelAA
import Verif.Model.Symplectic
import Verif.Model.Tilt
import Verif.Model.UtilNumerics
import Verif.Model.VerticalAA
import Verif.Model.Wrappers
import Verif.Props.C01
import Verif.Props.C01AnyDisk
import Verif.Props.C01DiskExp
import Verif.Props.C01Ellipsoidal
import Verif.Props.C01Ferrers
import Verif.Props.C01KuzminKutuzov
import Verif.Props.C01MN3
import Verif.Props.C01MovingObject
import Verif.Props.C01PowerSphCut
import Verif.Props.C01RadialProfiles
import Verif.Props.C01Ring
import Verif.Props.C01SCF
import Verif.Props.C01SoftenedNeedle
import Verif.Props.C01SpiralArms
import Verif.Props.C01TwoPower
import Verif.Props.C02
import Verif.Props.C03
import Verif.Props.C04
import Verif.Props.C05
import Verif.Props.C06
import Verif.Props.C07
import Verif.Props.C08
import Verif.Props.C09
import Verif.Props.C10
import Verif.Props.C100
import Verif.Props.C100Dense
import Verif.Props.C100Order
import Verif.Props.C100Time
import Verif.Props.C100Trees
import Verif.Props.C11
import Verif.Props.C12
import Verif.Props.C13
import Verif.Props.C14
import Verif.Props.C14Actions
import Verif.Props.C14Limits
import Verif.Props.C15
import Verif.Props.C16
import Verif.Props.C17
import Verif.Props.C18
import Verif.Props.C19
import Verif.Props.C20
import Verif.Props.C21
import Verif.Props.C22
import Verif.Props.C23
import Verif.Props.C24
import Verif.Props.C25
import Verif.Props.C26
import Verif.Props.C27
import Verif.Props.C28
import Verif.Props.C29
import Verif.Props.C30
import Verif.Props.C31
import Verif.Props.C32
import Verif.Props.C33
import Verif.Props.C34
import Verif.Props.C35
import Verif.Props.C36
import Verif.Props.C37
import Verif.Props.C38
import Verif.Props.C39
import Verif.Props.C40
import Verif.Props.C41
import Verif.Props.C42
import Verif.Props.C43
import Verif.Props.C44
import Verif.Props.C45
import Verif.Props.C46
import Verif.Props.C47
import Verif.Props.C48
import Verif.Props.C49
import Verif.Props.C50
import Verif.Props.C50Angles
import Verif.Props.C50Example
import Verif.Props.C50Inverse
import Verif.Props.C50Motion
import Verif.Props.C50Radii
import Verif.Props.C51
import Verif.Props.C51SCF
import Verif.Props.C52
import Verif.Props.C53
import Verif.Props.C54
import Verif.Props.C54Bar
import Verif.Props.C55
import Verif.Props.C56
import Verif.Props.C57
import Verif.Props.C58
import Verif.Props.C58Jeans
import Verif.Props.C58Moments
import Verif.Props.C58Oort
import Verif.Props.C59
import Verif.Props.C59ConstantBeta
import Verif.Props.C59Density
import Verif.Props.C59Derivs
import Verif.Props.C59Eddington
import Verif.Props.C59Hernquist
import Verif.Props.C59HernquistBeta
import Verif.Props.C59HernquistHyper
import Verif.Props.C59OM
import Verif.Props.C60
import Verif.Props.C61
import Verif.Props.C62
import Verif.Props.C62Dens
import Verif.Props.C62Forms
import Verif.Props.C63
import Verif.Props.C64
import Verif.Props.C65
import Verif.Props.C65b
import Verif.Props.C65c
import Verif.Props.C66
import Verif.Props.C67
import Verif.Props.C68
import Verif.Props.C69
import Verif.Props.C70
import Verif.Props.C72
import Verif.Props.C73
import Verif.Props.C75
import Verif.Props.C76
import Verif.Props.C77
import Verif.Props.C77Vertical
import Verif.Props.C78
import Verif.Props.C78Delta
import Verif.Props.C79
import Verif.Props.C81
import Verif.Props.C82
import Verif.Props.C83
import Verif.Props.C84
import Verif.Props.C85
import Verif.Props.C86
import Verif.Props.C87
import Verif.Props.C88
import Verif.Props.C90
import Verif.Props.C90Moments
import Verif.Props.C90Other
import Verif.Props.C91
import Verif.Props.C91Profile
import Verif.Props.C91Solve
import Verif.Props.C92
import Verif.Props.C92Mass
import Verif.Props.C93
import Verif.Props.C94
import Verif.Props.C95
import Verif.Props.C95Staeckel
import Verif.Props.C96
import Verif.Props.C97
import Verif.Props.C98
import Verif.Props.C99
import Verif.Spec.ARS
import Verif.Spec.Array
import Verif.Spec.Dynamics
import Verif.Spec.Frames
import Verif.Spec.Mass
import Verif.Spec.Planar
import Verif.Spec.Pot
import Verif.Spec.RungeKutta
import Verif.Spec.Space
import Verif.Spec.Splitting
import Verif.Spec.Tableaux
import Verif.Util.Abel
import Verif.Util.BetaInt
import Verif.Util.Cart
import Verif.Util.Chain
import Verif.Util.Deriv
import Verif.Util.EllipsoidInt
import Verif.Util.EllipsoidMass
import Verif.Util.Elliptic
import Verif.Util.Erf
import Verif.Util.ExpInt
import Verif.Util.Gauss
import Verif.Util.GaussQuad
import Verif.Util.GegOrth
import Verif.Util.Gegenbauer
import Verif.Util.Hyper
import Verif.Util.IncGamma
import Verif.Util.Legendre
import Verif.Util.Leibniz
import Verif.Util.Libration
import Verif.Util.PlanarLemmas
import Verif.Util.PotLemmas
import Verif.Util.QuadConv
import Verif.Util.SphHarm
