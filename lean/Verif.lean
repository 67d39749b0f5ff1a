import Verif.Lemmas.Approx
import Verif.Lemmas.Arff
import Verif.Lemmas.Assign
import Verif.Lemmas.Biclus
import Verif.Lemmas.BiclusPlot
import Verif.Lemmas.Boley
import Verif.Lemmas.Candidate
import Verif.Lemmas.Cftp
import Verif.Lemmas.CftpExact
import Verif.Lemmas.Confidence
import Verif.Lemmas.Coverage
import Verif.Lemmas.Discrete
import Verif.Lemmas.Files
import Verif.Lemmas.Float
import Verif.Lemmas.FloatBoley
import Verif.Lemmas.FloatBoleyFit
import Verif.Lemmas.FloatBoleySelect
import Verif.Lemmas.FloatCftp
import Verif.Lemmas.FloatCftpRun
import Verif.Lemmas.FloatChoices
import Verif.Lemmas.FloatCouple
import Verif.Lemmas.FloatDouble
import Verif.Lemmas.FloatDraw
import Verif.Lemmas.FloatEvaluation
import Verif.Lemmas.FloatGraph
import Verif.Lemmas.FloatHead
import Verif.Lemmas.FloatLearner
import Verif.Lemmas.FloatLocal
import Verif.Lemmas.FloatLocal2
import Verif.Lemmas.FloatObjective
import Verif.Lemmas.FloatOriginal
import Verif.Lemmas.FloatTail
import Verif.Lemmas.GiveUp
import Verif.Lemmas.Graph
import Verif.Lemmas.Greedy
import Verif.Lemmas.GreedyArea
import Verif.Lemmas.GreedyHead
import Verif.Lemmas.Head
import Verif.Lemmas.Ideal
import Verif.Lemmas.Interrupt
import Verif.Lemmas.InterruptHeadFit
import Verif.Lemmas.KL
import Verif.Lemmas.Learner
import Verif.Lemmas.LearnerRefine
import Verif.Lemmas.Live
import Verif.Lemmas.Local
import Verif.Lemmas.Local2
import Verif.Lemmas.Near
import Verif.Lemmas.Pipeline
import Verif.Lemmas.Predict
import Verif.Lemmas.Printing
import Verif.Lemmas.Py
import Verif.Lemmas.Quantile
import Verif.Lemmas.Rand
import Verif.Lemmas.RandR
import Verif.Lemmas.Rename
import Verif.Lemmas.RowOrder
import Verif.Lemmas.Rule
import Verif.Lemmas.Sparse
import Verif.Lemmas.Synthetic
import Verif.Lemmas.Trie
import Verif.Lemmas.TrieHeap
import Verif.Lemmas.TrieTree
import Verif.Lemmas.Uncovered
import Verif.Model.Abstract
import Verif.Model.Arff
import Verif.Model.ArffFiles
import Verif.Model.Batch
import Verif.Model.Biclus
import Verif.Model.Cftp
import Verif.Model.Compare
import Verif.Model.Data
import Verif.Model.Dummy
import Verif.Model.Evaluation
import Verif.Model.Exp
import Verif.Model.Files
import Verif.Model.Float
import Verif.Model.FloatBoley
import Verif.Model.FloatCftp
import Verif.Model.FloatEvaluation
import Verif.Model.FloatGraph
import Verif.Model.FloatGreedyArea
import Verif.Model.FloatLearner
import Verif.Model.FloatLocal
import Verif.Model.FloatObjective
import Verif.Model.FloatOriginal
import Verif.Model.FloatTail
import Verif.Model.Graph
import Verif.Model.Greedy
import Verif.Model.GreedyArea
import Verif.Model.GreedyHead
import Verif.Model.GreedyTruth
import Verif.Model.Head
import Verif.Model.Interrupt
import Verif.Model.InterruptCftp
import Verif.Model.InterruptFit
import Verif.Model.InterruptHead
import Verif.Model.Learner
import Verif.Model.Load
import Verif.Model.Local
import Verif.Model.Mlflow
import Verif.Model.PcFreq
import Verif.Model.Pipeline
import Verif.Model.Plot
import Verif.Model.Preprocess
import Verif.Model.Printing
import Verif.Model.Projection
import Verif.Model.Quantile
import Verif.Model.Rand
import Verif.Model.RandR
import Verif.Model.ReadData
import Verif.Model.Rule
import Verif.Model.Scripts
import Verif.Model.Seeds
import Verif.Model.Sparse
import Verif.Model.Synthetic
import Verif.Model.TailSummary
import Verif.Model.Trie
import Verif.Model.TrieHeap
import Verif.Model.Tune
import Verif.Model.Uncovered
import Verif.Props.Abstract
import Verif.Props.Adviser
import Verif.Props.Arff
import Verif.Props.ArffFiles
import Verif.Props.ArffLines
import Verif.Props.Batch
import Verif.Props.BestOf
import Verif.Props.Biclus
import Verif.Props.Boley
import Verif.Props.Budget
import Verif.Props.BudgetDivMax
import Verif.Props.Candidate
import Verif.Props.Cftp
import Verif.Props.Compare
import Verif.Props.CoupledGreedy
import Verif.Props.Coverage
import Verif.Props.Data
import Verif.Props.Dataset
import Verif.Props.DenseArff
import Verif.Props.DenseLines
import Verif.Props.Dummy
import Verif.Props.Equivalent
import Verif.Props.Evaluation
import Verif.Props.Exp
import Verif.Props.Failing
import Verif.Props.Files
import Verif.Props.Filter
import Verif.Props.Float
import Verif.Props.FloatBoley
import Verif.Props.FloatCftp
import Verif.Props.FloatEvaluation
import Verif.Props.FloatGraph
import Verif.Props.FloatGreedyArea
import Verif.Props.FloatLearner
import Verif.Props.FloatLocal
import Verif.Props.FloatObjective
import Verif.Props.FloatOriginal
import Verif.Props.FloatTail
import Verif.Props.Gap
import Verif.Props.Genbase
import Verif.Props.GiveUp
import Verif.Props.Graph
import Verif.Props.Greedy
import Verif.Props.GreedyArea
import Verif.Props.GreedyTruth
import Verif.Props.GroundTruth
import Verif.Props.Head
import Verif.Props.HeadDetails
import Verif.Props.Ideal
import Verif.Props.Interrupt
import Verif.Props.InterruptCftp
import Verif.Props.InterruptFit
import Verif.Props.InterruptHead
import Verif.Props.InterruptHeadFit
import Verif.Props.Learner
import Verif.Props.Load
import Verif.Props.Local
import Verif.Props.Malformed
import Verif.Props.ManyHeads
import Verif.Props.Mlflow
import Verif.Props.Negative
import Verif.Props.OneDraw
import Verif.Props.Overflow
import Verif.Props.PcFreq
import Verif.Props.Pipeline
import Verif.Props.PlainSynthetic
import Verif.Props.Plot
import Verif.Props.Positions
import Verif.Props.Predict
import Verif.Props.Preprocess
import Verif.Props.Printing
import Verif.Props.Projection
import Verif.Props.PruneGreedy
import Verif.Props.Quantile
import Verif.Props.RaiseThreshold
import Verif.Props.ReadData
import Verif.Props.Refit
import Verif.Props.Rename
import Verif.Props.Repeats
import Verif.Props.RowOrder
import Verif.Props.Rule
import Verif.Props.RulePrecision
import Verif.Props.SampleClique
import Verif.Props.Saving
import Verif.Props.Scripts
import Verif.Props.Seeds
import Verif.Props.Sparse
import Verif.Props.Summary
import Verif.Props.Surs
import Verif.Props.Synthetic
import Verif.Props.TailEval
import Verif.Props.TailSummary
import Verif.Props.Thresholds
import Verif.Props.Tolerance
import Verif.Props.Tradeoff
import Verif.Props.Trie
import Verif.Props.TrieHeap
import Verif.Props.TrieObjects
import Verif.Props.Tune
import Verif.Props.Uncovered
import Verif.Props.Unlabelled
import Verif.Props.Votes
import Verif.Py
import Verif.Spec.Arff
import Verif.Spec.ArffFiles
import Verif.Spec.ArffLines
import Verif.Spec.BestOf
import Verif.Spec.Biclus
import Verif.Spec.Boley
import Verif.Spec.Candidate
import Verif.Spec.Cftp
import Verif.Spec.Data
import Verif.Spec.Discrete
import Verif.Spec.Equivalent
import Verif.Spec.Evaluation
import Verif.Spec.Failing
import Verif.Spec.Files
import Verif.Spec.FloatBoley
import Verif.Spec.FloatCftp
import Verif.Spec.FloatLearner
import Verif.Spec.FloatLocal
import Verif.Spec.FloatObjective
import Verif.Spec.FloatOriginal
import Verif.Spec.Gap
import Verif.Spec.Graph
import Verif.Spec.Greedy
import Verif.Spec.GreedyArea
import Verif.Spec.GreedyHead
import Verif.Spec.GreedyTruth
import Verif.Spec.Head
import Verif.Spec.Ideal
import Verif.Spec.Interrupt
import Verif.Spec.InterruptCftp
import Verif.Spec.InterruptFit
import Verif.Spec.InterruptHead
import Verif.Spec.Learner
import Verif.Spec.Load
import Verif.Spec.Local
import Verif.Spec.Mlflow
import Verif.Spec.OneDraw
import Verif.Spec.PcFreq
import Verif.Spec.Pipeline
import Verif.Spec.Plot
import Verif.Spec.Preprocess
import Verif.Spec.Printing
import Verif.Spec.Projection
import Verif.Spec.Quantile
import Verif.Spec.Rename
import Verif.Spec.RowOrder
import Verif.Spec.Rule
import Verif.Spec.SampleClique
import Verif.Spec.Scripts
import Verif.Spec.Sparse
import Verif.Spec.Surs
import Verif.Spec.Synthetic
import Verif.Spec.TailSummary
import Verif.Spec.Tradeoff
import Verif.Spec.Trie
import Verif.Spec.TrieHeap
import Verif.Spec.Tune
import Verif.Spec.Uncovered
import Verif.Spec.Unlabelled
