import Verif.Spec.Sem
import Verif.Model.Lit
import Verif.Props.C28_C29_Lit
import Verif.Props.C30_Luby
import Verif.Props.C31_Stage

import Verif.Props.C12_C13_Heap
import Verif.Props.Misc
import Verif.Props.C23_Certificate
import Verif.Props.C35_C37_Text
import Verif.Props.C09_C22_Cdb
import Verif.Lemmas.Handle
import Verif.Model.Solve
import Verif.Lemmas.RootSpec
import Verif.Lemmas.BinComplete
import Verif.Lemmas.VivSpec
import Verif.Lemmas.Glob
import Verif.Lemmas.SearchSpec
import Verif.Lemmas.BuildSpec
import Verif.Lemmas.ApiSpec
import Verif.Lemmas.SolveSpec
import Verif.Model.Main
import Verif.Model.Reach
import Verif.Lemmas.ReachSpec
import Verif.Props.C01_C02_Solve
import Verif.Props.C34_C46_Main
import Verif.Spec.State
import Verif.Props.C03_C11_Search
import Verif.Props.C25_C27_Api
import Verif.Props.C14_C19_Process
import Verif.Props.C42_Queue
import Verif.Lemmas.ElimExact
import Verif.Props.C43_Occurrences
import Verif.Lemmas.AgainSpec
import Verif.Props.C48_Again
import Verif.Lemmas.WatchDb
import Verif.Lemmas.WatchComplete
import Verif.Lemmas.WatchRoot
import Verif.Lemmas.WatchElim
import Verif.Lemmas.WatchSearch
import Verif.Props.C07_Propagation
import Verif.Lemmas.Checker
import Verif.Props.C24_C51_Proof
import Verif.Lemmas.Ends
import Verif.Lemmas.EndsRoot
import Verif.Lemmas.EndsElim
import Verif.Lemmas.EndsConf
import Verif.Lemmas.EndsSearch
import Verif.Props.C52_Ends
import Verif.Lemmas.Fresh
import Verif.Props.C53_C54_Progress
import Verif.Model.Timed
import Verif.Lemmas.Timed
import Verif.Lemmas.NoErr
import Verif.Props.C54_C55_Answers
import Verif.Model.ElimLoop
import Verif.Lemmas.ElimLoop
import Verif.Lemmas.ElimTrail
import Verif.Lemmas.ElimRuns
import Verif.Lemmas.ElimMain
import Verif.Model.Full
import Verif.Lemmas.Full
import Verif.Model.Skip
import Verif.Props.C56_Loops
import Verif.Lemmas.ElimShrink
import Verif.Model.Ample
import Verif.Lemmas.Gone
import Verif.Lemmas.GoneRoot
import Verif.Lemmas.GoneSearch
import Verif.Lemmas.Careful
import Verif.Props.C57_Ample
import Verif.Props.C58_Cleared
import Verif.Model.Dump
import Verif.Props.C59_Dump
import Verif.Model.Cli
import Verif.Spec.Cli
import Verif.Props.C60_Cli
import Verif.Spec.ProofFile
import Verif.Model.CertFile
import Verif.Lemmas.Torn
import Verif.Lemmas.CertFile
import Verif.Props.C61_File
import Verif.Model.Reduce
import Verif.Props.C64_Reduce
import Verif.Spec.Average
import Verif.Model.Ema
import Verif.Props.C65_Averages
import Verif.Props.C66_Bounds
import Verif.Model.Heur
import Verif.Props.C67_Activity
import Verif.Props.C68_Phases
import Verif.Props.C69_Counts
import Verif.Model.Header
import Verif.Props.C70_Header
import Verif.Lemmas.Grow
import Verif.Lemmas.SesSpec
import Verif.Props.C71_Session
import Verif.Spec.Local
import Verif.Model.Sls
import Verif.Lemmas.Sls
import Verif.Props.C73_LocalSearch
import Verif.Spec.Binary
import Verif.Model.Complete
import Verif.Lemmas.Complete
import Verif.Props.C74_Completion
import Verif.Spec.Vivify
import Verif.Model.VivTargets
import Verif.Lemmas.VivTargets
import Verif.Props.C75_Targets
import Verif.Spec.Process
import Verif.Model.Process
import Verif.Lemmas.Process
import Verif.Props.C76_Process
import Verif.Model.Whole
import Verif.Lemmas.Whole
import Verif.Props.C77_Whole
import Verif.Props.C77_Stage
import Verif.Model.Queue
import Verif.Lemmas.Queue
import Verif.Lemmas.QueueSelect
import Verif.Model.QueueSearch
import Verif.Lemmas.QueueProp
import Verif.Lemmas.QueueConf
import Verif.Lemmas.QueueIter
import Verif.Model.QueueSolve
import Verif.Model.QueueReach
import Verif.Lemmas.QueueRoot
import Verif.Lemmas.QueueElim
import Verif.Lemmas.QueueSolve
import Verif.Lemmas.QueueBuild
import Verif.Props.C78_Queue
import Verif.Model.QueueElimLoop
import Verif.Lemmas.QueueLoop
import Verif.Lemmas.QueueLoopVar
import Verif.Lemmas.QueueLoopMain
import Verif.Model.QueueWhole
import Verif.Lemmas.QueueVivify
import Verif.Lemmas.QueueWhole
import Verif.Model.QueueAmple
import Verif.Lemmas.QueueAmple
import Verif.Props.C80_Whole
import Verif.Model.QueueMain
import Verif.Props.C81_Program
import Verif.Model.Heatmap
import Verif.Props.C22_Drift
import Verif.Props.C82_Heatmap
import Verif.Props.C83_Files
import Verif.Props.C84_Limit
import Verif.Props.C85_Report
