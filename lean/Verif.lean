import Verif.Lemmas.CrossVal
import Verif.Lemmas.Csr
import Verif.Lemmas.Cvb
import Verif.Lemmas.DataSet
import Verif.Lemmas.Digamma
import Verif.Lemmas.Dirichlet
import Verif.Lemmas.Evidence
import Verif.Lemmas.Gauss
import Verif.Lemmas.Gibbs
import Verif.Lemmas.GibbsChain
import Verif.Lemmas.Probit
import Verif.Lemmas.Prune
import Verif.Lemmas.Rot
import Verif.Lemmas.Stm
import Verif.Lemmas.Vb
import Verif.Model.Copies
import Verif.Model.Csr
import Verif.Model.Ctm
import Verif.Model.CtmBound
import Verif.Model.CtmFast
import Verif.Model.CtmQuery
import Verif.Model.Cvb
import Verif.Model.CvbBound
import Verif.Model.DataSet
import Verif.Model.DataSetOps
import Verif.Model.DebugReport
import Verif.Model.Dmr
import Verif.Model.DmrCounts
import Verif.Model.DmrEstimates
import Verif.Model.DmrWeights
import Verif.Model.Evals
import Verif.Model.FoldRuns
import Verif.Model.Gibbs
import Verif.Model.GibbsHyper
import Verif.Model.Init
import Verif.Model.Likelihoods
import Verif.Model.LinkPred
import Verif.Model.LinkSplit
import Verif.Model.LogUtils
import Verif.Model.Lro
import Verif.Model.Mom
import Verif.Model.MomBound
import Verif.Model.Mtm
import Verif.Model.MtmBound
import Verif.Model.Numerics
import Verif.Model.Pretrained
import Verif.Model.PrintedTable
import Verif.Model.Priors
import Verif.Model.Py
import Verif.Model.RecLikely
import Verif.Model.Reports
import Verif.Model.ResultTable
import Verif.Model.Rtm
import Verif.Model.RtmLearn
import Verif.Model.RunCli
import Verif.Model.RunFiles
import Verif.Model.RunMain
import Verif.Model.RunOptions
import Verif.Model.RunTools
import Verif.Model.Seeding
import Verif.Model.Segments
import Verif.Model.SelfLda
import Verif.Model.SingleDoc
import Verif.Model.SkOther
import Verif.Model.SkParams
import Verif.Model.SkWrapped
import Verif.Model.Sklearn
import Verif.Model.SparseKernels
import Verif.Model.Stm
import Verif.Model.StmBound
import Verif.Model.StmVecY
import Verif.Model.StmYv
import Verif.Model.Stopping
import Verif.Model.Vb
import Verif.Model.VbBound
import Verif.Model.VbPython
import Verif.Model.VecTrans
import Verif.Model.WordList
import Verif.Props.Absent
import Verif.Props.ArxivFiles
import Verif.Props.Bohning
import Verif.Props.Bouchard
import Verif.Props.CombineMap
import Verif.Props.CompletionParts
import Verif.Props.Copies
import Verif.Props.CrossVal
import Verif.Props.Ctm
import Verif.Props.CtmBound
import Verif.Props.CtmFast
import Verif.Props.CtmQuery
import Verif.Props.CtmStop
import Verif.Props.CtmTrain
import Verif.Props.Cvb0
import Verif.Props.Cvb2
import Verif.Props.CvbBound
import Verif.Props.CvbRange
import Verif.Props.DataSetOps
import Verif.Props.DataSetSplit
import Verif.Props.DebugReport
import Verif.Props.Dmr
import Verif.Props.DmrCounts
import Verif.Props.DmrEstimates
import Verif.Props.DmrPosterior
import Verif.Props.DmrWeights
import Verif.Props.DocCompletion
import Verif.Props.Drivers
import Verif.Props.Evals
import Verif.Props.ExtraPrediction
import Verif.Props.FoldRuns
import Verif.Props.FoundPrediction
import Verif.Props.Gibbs
import Verif.Props.GibbsHyper
import Verif.Props.GibbsPosterior
import Verif.Props.GibbsRuns
import Verif.Props.Init
import Verif.Props.Likelihoods
import Verif.Props.LinkParts
import Verif.Props.LinkPred
import Verif.Props.LinkSplit
import Verif.Props.LogUtils
import Verif.Props.Lro
import Verif.Props.MergedWords
import Verif.Props.MomBound
import Verif.Props.MomElbo
import Verif.Props.MomEm
import Verif.Props.MomGibbs
import Verif.Props.MomPosterior
import Verif.Props.Mtm
import Verif.Props.MtmBound
import Verif.Props.MtmLinks
import Verif.Props.MtmQuery
import Verif.Props.MtmTrain
import Verif.Props.NoLinks
import Verif.Props.Numerics
import Verif.Props.OwnWords
import Verif.Props.Parts
import Verif.Props.PerfectPrediction
import Verif.Props.Perplexity
import Verif.Props.Popular
import Verif.Props.Pretrained
import Verif.Props.PrintedRows
import Verif.Props.PrintedTable
import Verif.Props.Priors
import Verif.Props.Prune
import Verif.Props.Ranking
import Verif.Props.RankingUp
import Verif.Props.RecLikely
import Verif.Props.Renumber
import Verif.Props.RenumberCtm
import Verif.Props.RenumberCvb
import Verif.Props.RenumberLinks
import Verif.Props.RenumberScores
import Verif.Props.RenumberStm
import Verif.Props.RenumberTokens
import Verif.Props.Reports
import Verif.Props.ResultTable
import Verif.Props.Rtm
import Verif.Props.RtmBound
import Verif.Props.RtmLearn
import Verif.Props.RunCli
import Verif.Props.RunFiles
import Verif.Props.RunOptions
import Verif.Props.ScaledCounts
import Verif.Props.ScoreOrder
import Verif.Props.Seeding
import Verif.Props.Segments
import Verif.Props.SelectUsers
import Verif.Props.SelfLda
import Verif.Props.SingleDoc
import Verif.Props.SkOther
import Verif.Props.SkParams
import Verif.Props.SkWrapped
import Verif.Props.Sklearn
import Verif.Props.SoftSplit
import Verif.Props.SparseKernels
import Verif.Props.SparseOut
import Verif.Props.Stages
import Verif.Props.StagesLinks
import Verif.Props.StagesStm
import Verif.Props.Stm
import Verif.Props.StmBound
import Verif.Props.StmCov
import Verif.Props.StmModel
import Verif.Props.StmVecY
import Verif.Props.StmYv
import Verif.Props.Stopping
import Verif.Props.TagEval
import Verif.Props.TextTools
import Verif.Props.Twins
import Verif.Props.UnlinkedDocs
import Verif.Props.UnusedFeature
import Verif.Props.Vb
import Verif.Props.VbElbo
import Verif.Props.VbPython
import Verif.Props.VecTrans
import Verif.Props.WordList
