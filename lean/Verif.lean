import Verif.Props.Factor
import Verif.Props.Inference
import Verif.Props.Graph
import Verif.Props.Net
import Verif.Props.Edit
import Verif.Props.HillClimb
import Verif.Props.Learn
import Verif.Props.Sample
import Verif.Props.Sample2
import Verif.Props.Sample3
import Verif.Props.Sample4
import Verif.Props.Distance
import Verif.Props.Structure
import Verif.Props.Constraint
import Verif.Props.IO
import Verif.Props.DataPrep
import Verif.Props.Indep
import Verif.Props.Indep2
import Verif.Props.HcBinary
import Verif.Props.Bif
import Verif.Props.Chordal
import Verif.Props.Clique
import Verif.Props.Clique2
import Verif.Props.Clique3
import Verif.Props.Iamb
import Verif.Props.NaiveBayes
import Verif.Props.Ilp
import Verif.Props.Entropy
import Verif.Props.InfoScore
import Verif.Props.Fitness
import Verif.Props.LogFactor
import Verif.Props.EmpDist
import Verif.Props.Share
import Verif.Props.Indep3
import Verif.Props.Small
import Verif.Props.Rounded
import Verif.Props.Head
import Verif.Props.Sample5
import Verif.Props.ParamDist
import Verif.Props.ExactBp
import Verif.Props.Oracle
import Verif.Props.FactorizationOps
import Verif.Props.MarginalMap
import Verif.Props.Recover
import Verif.Props.SampleMI
import Verif.Props.Perturb
import Verif.Props.Broken
import Verif.Props.DSep
import Verif.Spec.Tight
import Verif.Props.Tight
import Verif.Spec.CondRecover
import Verif.Proofs.SmoothCMI
import Verif.Proofs.SampleCMI
import Verif.Proofs.EmpLimit
import Verif.Proofs.SampleBox
import Verif.Props.SampleCMI
import Verif.Props.SampleBlanket
import Verif.Model.ScoreCall
import Verif.Props.ScoreCall
import Verif.Spec.Greedy
import Verif.Proofs.HcGreedy
import Verif.Props.SampleHc
import Verif.Spec.Project
import Verif.Props.Project
import Verif.Proofs.Concentration
import Verif.Props.Finite
import Verif.Props.Objects
import Verif.Props.Reload
import Verif.Props.FillIn
import Verif.Props.Queries
import Verif.Spec.Stale
import Verif.Proofs.Stale
import Verif.Proofs.Stale2
import Verif.Proofs.Stale3
import Verif.Proofs.Stale4
import Verif.Props.Stale
import Verif.Spec.Links
import Verif.Props.Links
import Verif.Proofs.Stale5
import Verif.Props.Stale2
import Verif.Spec.Rename
import Verif.Proofs.Rename
import Verif.Props.Rename
import Verif.Props.Rename2
import Verif.Props.RowOrder
import Verif.Props.RowOrder2
import Verif.Props.MaxLik
import Verif.Props.LearnState
import Verif.Props.LearnState2
import Verif.Props.Local
import Verif.Props.ChowLiu
import Verif.Props.Keyed
import Verif.Props.Repeat
import Verif.Spec.Recode
import Verif.Props.Recode
import Verif.Spec.Codes
import Verif.Props.Codes
import Verif.Proofs.RepeatSearch
import Verif.Props.RepeatSearch
import Verif.Proofs.Stale6
import Verif.Props.Stale3
import Verif.Props.LearnState3
import Verif.Spec.Grid
import Verif.Props.Grid
import Verif.Props.Weight
import Verif.Props.Subset
import Verif.Proofs.Agree
import Verif.Props.SubsetGood
import Verif.Props.SubsetMle
import Verif.Props.LearnLocal
import Verif.Model.RoundedLearn
import Verif.Proofs.RoundedLearn
import Verif.Props.RoundedLearn
import Verif.Model.RoundedBayes
import Verif.Spec.RoundedSum
import Verif.Proofs.RoundedBayes
import Verif.Proofs.RoundedBayes2
import Verif.Props.RoundedBayes
import Verif.Props.RoundedBayesSum
import Verif.Audit
