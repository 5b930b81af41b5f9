import Verif.Panel.Props
import Verif.Panel.Props2
import Verif.Panel.Reshape
import Verif.Prep.Props
import Verif.Prep.Tensor
import Verif.Prep.Cohort
import Verif.AttGt.Parallel
import Verif.AttGt.Props
import Verif.AttGt.Props2
import Verif.DR.Props
import Verif.DR.RC
import Verif.DR.MeanZero
import Verif.DR.Jackknife
import Verif.DR.JackknifeRC
import Verif.DR.JackknifeEx
import Verif.DR.JackknifeMore
import Verif.DR.JackknifeMoreEx
import Verif.DR.Degenerate
import Verif.AttGt.Capstone
import Verif.Agg.Props
import Verif.Agg.Props2
import Verif.Agg.Props3
import Verif.Agg.Deriv
import Verif.Agg.Weights
import Verif.Agg.Empty
import Verif.Boot.Props
import Verif.Boot.Cluster
import Verif.Dist.Gram
import Verif.Dist.Reduce
import Verif.Dist.Cell
import Verif.Dist.CellRC
import Verif.Triple.Ex
import Verif.Triple.RC
import Verif.Triple.Gmm
import Verif.Triple.MultiProps
import Verif.Triple.Cells
import Verif.Triple.AggProps
import Verif.Triple.AggDeriv
import Verif.Triple.Scale
import Verif.Triple.AggLabels
import Verif.Inter.PathProps
import Verif.Inter.HorizonEx
import Verif.Inter.Options
import Verif.Inter.Normalise
import Verif.Honest.Props
import Verif.Honest.Relative
import Verif.Honest.Identified
import Verif.Honest.IdentifiedRM
import Verif.Honest.IdentifiedEx
import Verif.Honest.Compiled
import Verif.Honest.UpperM
import Verif.Infra.Backend
import Verif.Spline.Df
import Verif.Npiv.Deriv
import Verif.Valid.Two
import Verif.Cont.Dose
import Verif.DR.RefitEx
import Verif.DR.TwfeEx
import Verif.DR.TiltEx
import Verif.DR.Quant
import Verif.Dist.DriverIF
import Verif.Npiv.DimC
import Verif.Cont.More
import Verif.Boot.QuantModel
import Verif.Boot.QuantLemmas
import Verif.Boot.Quant
import Verif.Boot.Quant2
import Verif.DR.RefitTrim
import Verif.Inter.VarModel
import Verif.Inter.VarLemmas
import Verif.Inter.VarProps
import Verif.Inter.VarShock
import Verif.Inter.VarCluster
import Verif.Inter.ControlsModel
import Verif.Inter.Controls
import Verif.Inter.EqualTest
import Verif.Triple.Deriv
import Verif.Triple.DerivRC
import Verif.Triple.DerivEx
import Verif.Honest.FlciModel
import Verif.Honest.FlciSpec
import Verif.Honest.Flci
import Verif.Honest.FlciProps
import Verif.Honest.FoldedNormal
import Verif.Honest.FlciCover
import Verif.Honest.Golden
import Verif.Honest.FlciRun
import Verif.Honest.ArpModel
import Verif.Honest.Trunc
import Verif.Honest.ArpCond
import Verif.Honest.ArpSection
import Verif.Honest.ArpIndep
import Verif.Honest.ArpCore
import Verif.Honest.GaussEx
import Verif.Honest.ArpSize
import Verif.Honest.ArpViol
import Verif.Honest.ArpCI
import Verif.Honest.ArpCIProps
import Verif.Honest.ArpSearch
import Verif.Honest.ArpGamma
import Verif.Honest.ArpGen
import Verif.Honest.ArpLpModel
import Verif.Honest.ArpLp
import Verif.Honest.ArpPrimal
import Verif.Honest.ArpFin
import Verif.Honest.ArpLpSize
import Verif.Honest.ArpLpProps
import Verif.Honest.ArpNuisCi
import Verif.Honest.ArpNone
import Verif.Honest.Sens
import Verif.Honest.SensTable
import Verif.Honest.SensFlci
import Verif.Honest.SensGrid
import Verif.Dist.Ddd
import Verif.Dist.DddRC
import Verif.Dist.DddDriver
import Verif.Dist.DddMulti
import Verif.Inter.Dist
import Verif.Inter.DistVar
import Verif.Inter.DistFilter
import Verif.Inter.DistControls
import Verif.Inter.Het
import Verif.Cont.Dist
import Verif.Npiv.Select
import Verif.Npiv.SelectThm
import Verif.Npiv.Band
import Verif.Npiv.Tsls
import Verif.Triple.Entry
import Verif.Triple.MultiRC
import Verif.Boot.Interval
import Verif.Valid.TwoCanon
import Verif.DR.EntryModel
import Verif.DR.Entry
import Verif.DR.EntryProps
import Verif.DR.EntryRC
import Verif.DR.EntryEff
import Verif.DR.EntryCov
import Verif.Honest.Combined
import Verif.Honest.CombinedProps
import Verif.Honest.CombinedEx
import Verif.Cont.Pte
import Verif.Cont.PteAgg
import Verif.Cont.PteProps
import Verif.Cont.PteQuant
import Verif.Cont.PteBoot
import Verif.Boot.ClusterOpts
import Verif.Honest.Farkas
import Verif.Honest.ArpExist
import Verif.Honest.ArpUnion
import Verif.Honest.ArpUnionEx
import Verif.Cont.Cck
import Verif.Report.Model
import Verif.Report.Props
import Verif.Honest.ArpDual
import Verif.Honest.SdrmFlci
import Verif.Sim.Model
import Verif.Sim.Assign
import Verif.Sim.Trends
import Verif.Sim.Cont
import Verif.Honest.Factor
import Verif.Report.Normal
import Verif.Report.PValue
import Verif.Ident.AttGt
import Verif.Ident.Agg
import Verif.Ident.Reg
import Verif.Sim.Standard
import Verif.Ident.Ddd
import Verif.Ident.Variance
import Verif.Ident.Inter
import Verif.Ident.RegRC
import Verif.Ident.DddRC
import Verif.Asym.Basic
import Verif.Asym.Plugin
import Verif.Asym.Draws
import Verif.Asym.Reg
import Verif.Asym.Cell
import Verif.Asym.Combine
import Verif.Asym.Staggered
import Verif.Asym.Aggte
import Verif.Asym.Ddd
import Verif.DR.NoCov
import Verif.Asym.NoCov
import Verif.Report.TwoPeriod
import Verif.Report.Triple
import Verif.Inter.BootReport
import Verif.Boot.Seed
import Verif.Asym.CrossSection
import Verif.AttGt.Bookkeeping
import Verif.AttGt.BookkeepingProps
import Verif.Inter.Balance
import Verif.Prep.Gate
import Verif.Cont.PteGroup
import Verif.Dist.DddCells
import Verif.Dist.Options
import Verif.Asym.DddNoCov
import Verif.Dist.Infer
import Verif.Asym.DddRCNoCov
import Verif.Asym.AggGen
import Verif.Asym.CellRC
import Verif.Asym.DddMp
import Verif.Asym.DddAgg
import Verif.Asym.DddGroup
import Verif.Asym.DddOverall
import Verif.Asym.DddShares
