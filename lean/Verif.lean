import Verif.Core.Num
import Verif.Core.Py
import Verif.Core.Dict
import Verif.Model.Container
import Verif.Proof.Rounding
import Verif.Spec.Container
import Verif.Proof.Container
import Verif.Props.Container
import Verif.Model.Estimator
import Verif.Proof.Cache
import Verif.Proof.Estimator
import Verif.Props.Estimator
import Verif.Model.Summation
import Verif.Proof.Summation
import Verif.Proof.Winding
import Verif.Spec.Summation
import Verif.Proof.SumLine
import Verif.Props.Summation
import Verif.Model.Quadrature
import Verif.Spec.Quadrature
import Verif.Proof.Quadrature
import Verif.Props.Quadrature
import Verif.Model.Algorithms
import Verif.Spec.Search
import Verif.Proof.Frames
import Verif.Proof.Search
import Verif.Proof.Closure
import Verif.Proof.Runs
import Verif.Proof.Simple
import Verif.Proof.CleanCache
import Verif.Props.Search
import Verif.Proof.NewtonIdentities
import Verif.Proof.Cluster
import Verif.Proof.Variants
import Verif.Proof.Exact
import Verif.Proof.PolySum
import Verif.Props.Variants
import Verif.Model.Finder
import Verif.Spec.Finder
import Verif.Spec.Filters
import Verif.Proof.Interrupt
import Verif.Proof.Finder
import Verif.Proof.Jobs
import Verif.Props.Finder
import Verif.Props.Filters
import Verif.Model.Types
import Verif.Model.Locator
import Verif.Model.Init
import Verif.Model.Factories
import Verif.Spec.Locator
import Verif.Proof.Locator
import Verif.Props.Locator
import Verif.Props.Init
import Verif.Props.Factories
import Verif.Model.Settings
import Verif.Spec.Settings
import Verif.Proof.Settings
import Verif.Props.Settings
import Verif.Model.Plugins
import Verif.Spec.Plugins
import Verif.Proof.Plugins
import Verif.Props.Plugins
import Verif.Model.Cli
import Verif.Spec.Cli
import Verif.Proof.Cli
import Verif.Props.Cli
import Verif.Model.Lambda
import Verif.Model.Logging
import Verif.Spec.Lambda
import Verif.Spec.Logging
import Verif.Props.Lambda
import Verif.Props.Logging
import Verif.Spec.Turn
import Verif.Proof.Turn
import Verif.Proof.Cover
import Verif.Proof.Grid
import Verif.Proof.SumStep
import Verif.Proof.SumInv
import Verif.Proof.SumTree
import Verif.Proof.SumSearch
import Verif.Proof.SumDefined
import Verif.Proof.SumTotal
import Verif.Proof.Approx
import Verif.Props.SumSearch
import Verif.Props.Repeat
import Verif.Spec.Noting
import Verif.Proof.Once
import Verif.Proof.Noted
import Verif.Proof.Completes
import Verif.Props.Once
import Verif.Props.SumNewton
import Verif.Props.SumTotal
import Verif.Model.Build
import Verif.Spec.Build
import Verif.Props.Build
import Verif.Spec.Use
import Verif.Props.Use
import Verif.Model.Float
import Verif.Spec.Float
import Verif.Proof.FloatBin
import Verif.Proof.Float
import Verif.Props.Float
import Verif.Model.FloatSum
import Verif.Spec.FloatSum
import Verif.Proof.FloatSum
import Verif.Proof.FloatTurn
import Verif.Props.FloatSum
import Verif.Props.FloatLine
import Verif.Proof.FloatCount
import Verif.Props.FloatCount
import Verif.Model.FloatContainer
import Verif.Spec.FloatContainer
import Verif.Proof.FloatContainer
import Verif.Props.FloatContainer
import Verif.Model.FilterErr
import Verif.Spec.FilterErr
import Verif.Props.FilterErr
import Verif.Model.Raise
import Verif.Spec.Raise
import Verif.Proof.Raise
import Verif.Props.Raise
import Verif.Model.FloatParallel
import Verif.Proof.FloatParallel
import Verif.Props.FloatParallel
import Verif.Spec.Report
import Verif.Props.Report
import Verif.Props.NewtonGrid
import Verif.Model.Argparse
import Verif.Spec.Argparse
import Verif.Proof.Argparse
import Verif.Proof.ArgOperand
import Verif.Proof.ArgStep
import Verif.Proof.ArgItems
import Verif.Proof.ArgLine
import Verif.Proof.ArgHelp
import Verif.Props.Argparse
import Verif.Model.Wiring
import Verif.Model.Progress
import Verif.Spec.Wiring
import Verif.Spec.Progress
import Verif.Proof.Wiring
import Verif.Proof.Progress
import Verif.Props.Wiring
import Verif.Spec.Disjoint
import Verif.Proof.Indep
import Verif.Props.Disjoint
import Verif.Props.Progress
import Verif.Spec.FloatSearch
import Verif.Proof.TreeGrid
import Verif.Proof.CoverF
import Verif.Proof.SumInvF
import Verif.Proof.SumTreeF
import Verif.Proof.SumSearchF
import Verif.Proof.CountF
import Verif.Proof.SumTotalF
import Verif.Props.FloatSearch
import Verif.Model.Romberg
import Verif.Spec.QuadSearch
import Verif.Proof.Romberg
import Verif.Proof.QuadLine
import Verif.Proof.Reach
import Verif.Proof.QuadSearch
import Verif.Props.QuadSearch
import Verif.Spec.Coefficients
import Verif.Spec.Moment
import Verif.Proof.Moment
import Verif.Proof.QuadMoment
import Verif.Proof.PolyQuad
import Verif.Proof.Perturb
import Verif.Proof.PolySearch
import Verif.Props.QuadMoment
import Verif.Model.ScipyNewton
import Verif.Spec.Newton
import Verif.Proof.ScipyNewton
import Verif.Props.ScipyNewton
import Verif.Model.ScipySecant
import Verif.Spec.Secant
import Verif.Proof.ScipySecant
import Verif.Props.ScipySecant
import Verif.Spec.EndToEnd
import Verif.Props.EndToEnd
import Verif.Props.SumScipy
import Verif.Model.Show
import Verif.Spec.Show
import Verif.Props.Show
import Verif.Model.Ext
import Verif.Spec.Ext
import Verif.Proof.Ext
import Verif.Props.Ext
import Verif.Model.ExtContainer
import Verif.Props.ExtContainer
import Verif.Model.ExtNewton
import Verif.Spec.ExtLink
import Verif.Proof.ExtLink
import Verif.Props.ExtLink
import Verif.Props.ExtLinkContainer
import Verif.Model.Sessions
import Verif.Spec.Sessions
import Verif.Proof.Sessions
import Verif.Props.Sessions
import Verif.Spec.Several
import Verif.Proof.Several
import Verif.Props.Several
import Verif.Spec.Mixed
import Verif.Props.Mixed
import Verif.Model.NewtonRounded
import Verif.Spec.NewtonRounded
import Verif.Proof.NewtonRounded
import Verif.Props.NewtonRounded
import Verif.Model.NewtonFloat
import Verif.Spec.NewtonFloat
import Verif.Proof.NewtonFloat
import Verif.Props.NewtonFloat
import Verif.Proof.NewtonDouble
import Verif.Props.NewtonDouble
import Verif.Model.PolynomialFloat
import Verif.Spec.PolynomialFloat
import Verif.Proof.PolynomialFloat
import Verif.Props.PolynomialFloat
