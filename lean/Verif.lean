import Verif.Props.Linalg
import Verif.Props.Keys
import Verif.Props.DataVector
import Verif.Props.Fisher
import Verif.Props.FisherErrors
import Verif.Props.FisherStore
import Verif.Props.FisherAnalysis
import Verif.Props.FinalResultsOk
import Verif.Props.FisherIO
import Verif.Props.Ellipse
import Verif.Props.Multipoles
import Verif.Props.Covariance
import Verif.Props.Evaluator
import Verif.Props.CovariancePD
import Verif.Props.DeltaCl
import Verif.Props.PyDict
import Verif.Props.Parameter
import Verif.Props.ParameterSteps
import Verif.Props.Stem
import Verif.Props.Analytic
import Verif.Props.Names
import Verif.Props.Jobs
import Verif.Props.Batch
import Verif.Props.Integration
import Verif.Props.Numeric
import Verif.Props.Config
import Verif.Props.TeX
import Verif.Props.Redshift
import Verif.Props.Kernel
import Verif.Props.Boltzmann
import Verif.Props.Ini
import Verif.Props.Units
import Verif.Props.Explorer
import Verif.Props.H5
import Verif.Props.Orchestration
import Verif.Props.Resume
import Verif.Props.FisherMisc
import Verif.Props.Workspace
import Verif.Props.Runner
import Verif.Props.Background
import Verif.Props.Density
import Verif.Props.Weights
import Verif.Props.Spectra
import Verif.Props.External
import Verif.Props.ExternalTables
import Verif.Props.Reparam
import Verif.Props.IstErrors
import Verif.Props.Compare
import Verif.Props.Collector
import Verif.Props.Submit
import Verif.Props.Report
import Verif.Props.Bias
import Verif.Props.BiasFile
import Verif.Props.Stored
import Verif.Props.CosmoFile
import Verif.Props.ForecastLoad
import Verif.Props.ForecastEll
import Verif.Props.FisherInputs
import Verif.Props.ClDerivative
import Verif.Props.AnalysisLife
import Verif.Props.Plot
import Verif.Props.Results
import Verif.Props.Tables
import Verif.Props.OrchInputs
import Verif.Props.FisherTask
import Verif.Props.Gui
import Verif.Props.FisherFiles
import Verif.Props.RunSeyfert
import Verif.Props.JobRuns
import Verif.Props.FinalJobs
import Verif.Props.Equality
import Verif.Props.Independence
import Verif.Props.Lookup
import Verif.Props.Session
import Verif.Props.TaskConfig
import Verif.Props.SCamera
import Verif.Props.RunCompare
import Verif.Props.Retro
import Verif.Props.TeXTable
import Verif.Props.Tools
import Verif.Props.ScenariosHybrid
import Verif.Props.DensityMaker
import Verif.Props.BuildTables
import Verif.Props.Contours
import Verif.Props.CollectProg
import Verif.Props.Args
import Verif.Props.FinalFiles
import Verif.Props.Differences
import Verif.Props.Combos
import Verif.Props.Transition
import Verif.Props.PkFile
import Verif.Props.FinalOrder
import Verif.Props.FinalOrderShipped
import Verif.Props.SkyNoise
import Verif.Props.PowerEval
import Verif.Props.PowerJobs
import Verif.Props.ClDirect
import Verif.Props.ResultsWrite
