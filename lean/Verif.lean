import Verif.Props.ALExhaust
import Verif.Props.AcqExplore
import Verif.Props.AcqRelations
import Verif.Props.AcqUnits
import Verif.Props.Acquisition
import Verif.Props.ActiveLearning
import Verif.Props.AdsBonds
import Verif.Props.AdsFind
import Verif.Props.Aliasing
import Verif.Props.AtomsApi
import Verif.Props.Catapp
import Verif.Props.Catmap
import Verif.Props.Clean
import Verif.Props.CleanFeatures
import Verif.Props.CleanInvariance
import Verif.Props.CleanUnits
import Verif.Props.Clustering
import Verif.Props.Correlation
import Verif.Props.Curve
import Verif.Props.CurveOptions
import Verif.Props.CurveScale
import Verif.Props.Database
import Verif.Props.DatabaseNames
import Verif.Props.Distribution
import Verif.Props.Elimination
import Verif.Props.EliminationOrder
import Verif.Props.ErrorUnits
import Verif.Props.Errors
import Verif.Props.Estimator
import Verif.Props.FeatEng
import Verif.Props.FeatEngCalls
import Verif.Props.FeatEngRows
import Verif.Props.FeatureGA
import Verif.Props.FeatureGARun
import Verif.Props.Features
import Verif.Props.Fingerprints
import Verif.Props.FixedBasis
import Verif.Props.FracEval
import Verif.Props.GADraws
import Verif.Props.GAFitness
import Verif.Props.GAOperators
import Verif.Props.GASearch
import Verif.Props.GASelection
import Verif.Props.GPBatch
import Verif.Props.GPBuild
import Verif.Props.GPConstant
import Verif.Props.GPErrors
import Verif.Props.GPEvidence
import Verif.Props.GPFar
import Verif.Props.GPGrad
import Verif.Props.GPGradAmplitude
import Verif.Props.GPGradErrors
import Verif.Props.GPGradFeatures
import Verif.Props.GPGradForget
import Verif.Props.GPGradKernelList
import Verif.Props.GPGradLimits
import Verif.Props.GPGradLoo
import Verif.Props.GPGradNear
import Verif.Props.GPGradNoise
import Verif.Props.GPGradNoiseKernel
import Verif.Props.GPGradRelations
import Verif.Props.GPGradRepeat
import Verif.Props.GPGradSequential
import Verif.Props.GPGradUnits
import Verif.Props.GPIntercept
import Verif.Props.GPKernelList
import Verif.Props.GPLikelihood
import Verif.Props.GPLimits
import Verif.Props.GPLoo
import Verif.Props.GPMisc
import Verif.Props.GPNear
import Verif.Props.GPNoise
import Verif.Props.GPNoiseKernel
import Verif.Props.GPOptimize
import Verif.Props.GPOrder
import Verif.Props.GPPredict
import Verif.Props.GPRelations
import Verif.Props.GPRepeat
import Verif.Props.GPRigid
import Verif.Props.GPSequential
import Verif.Props.GPSingle
import Verif.Props.GPState
import Verif.Props.GPStationary
import Verif.Props.GPUncertainty
import Verif.Props.GPUnits
import Verif.Props.GPWidths
import Verif.Props.GenAttributes
import Verif.Props.GeneralGP
import Verif.Props.Graph
import Verif.Props.Hierarchy
import Verif.Props.HierarchyCurve
import Verif.Props.Impute
import Verif.Props.KFold
import Verif.Props.Kernel
import Verif.Props.KernelAA
import Verif.Props.KernelGrad
import Verif.Props.KernelJac
import Verif.Props.KernelMisc
import Verif.Props.KernelSetup
import Verif.Props.LogErrors
import Verif.Props.MLMin
import Verif.Props.MLMinMoved
import Verif.Props.MLMinRestart
import Verif.Props.MLNEB
import Verif.Props.MLNEBMoved
import Verif.Props.Magpie
import Verif.Props.Masks
import Verif.Props.ModelFiles
import Verif.Props.NebFiles
import Verif.Props.NeighborFeatures
import Verif.Props.Neighbors
import Verif.Props.OptIO
import Verif.Props.Particle
import Verif.Props.ParticleExt
import Verif.Props.Pca
import Verif.Props.Penalty
import Verif.Props.PeriodicLabels
import Verif.Props.PeriodicTable
import Verif.Props.Perturbation
import Verif.Props.PotentialMinima
import Verif.Props.Potentials
import Verif.Props.Predictors
import Verif.Props.Refine
import Verif.Props.RegFit
import Verif.Props.Ridge
import Verif.Props.RidgeData
import Verif.Props.RidgeErrors
import Verif.Props.RidgeFit
import Verif.Props.RidgeLoo
import Verif.Props.RidgeParams
import Verif.Props.RidgeRelations
import Verif.Props.RidgeSearch
import Verif.Props.Sammon
import Verif.Props.Scaling
import Verif.Props.ScalingUnits
import Verif.Props.Screening
import Verif.Props.ScreeningFeatures
import Verif.Props.ScreeningOrder
import Verif.Props.ScreeningUnits
import Verif.Props.Sensitivity
import Verif.Props.SiteGeom
import Verif.Props.SiteNames
import Verif.Props.SiteSelect
import Verif.Props.SiteState
import Verif.Props.SiteStats
import Verif.Props.SiteStore
import Verif.Props.SiteTable
import Verif.Props.Slab
import Verif.Props.SlabLayers
import Verif.Props.Split
import Verif.Props.SplitFiles
import Verif.Props.Surrogate
import Verif.Props.SurrogateCertain
import Verif.Props.SurrogateForces
import Verif.Props.SystemFeatures
import Verif.Props.Utilities
