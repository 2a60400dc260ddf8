import Verif.Py.Basic
import Verif.Model.Tokenizer
import Verif.Model.CaseRun
import Verif.Props.Tokenizer
import Verif.Props.CaseRun
import Verif.Props.Mixed
import Verif.Props.Sections
import Verif.Props.Repeat
import Verif.Props.Review
import Verif.Props.Reports
import Verif.Props.Run
import Verif.Props.ReviewAll
import Verif.Props.Selection
import Verif.Props.Parallel
import Verif.Props.Cache
import Verif.Props.Env
import Verif.Props.Functions
import Verif.Props.Requests
import Verif.Props.Naming
import Verif.Props.Setup
import Verif.Props.Config
import Verif.Props.Suites
import Verif.Props.Commands
import Verif.Props.Index
import Verif.Props.RelPath
import Verif.Props.Format
import Verif.Props.Project
import Verif.Props.Streams
import Verif.Props.Console
import Verif.Props.Detection
import Verif.Props.Agree
import Verif.Props.Plan
import Verif.Props.Merge
import Verif.Props.Depends
import Verif.Props.Shell
import Verif.Props.Batches
import Verif.Props.Bodies
import Verif.Props.Live
import Verif.Props.Terminates
import Verif.Props.History
import Verif.Props.Worker
import Verif.Props.Together
import Verif.Props.Provenance
import Verif.Props.Story
import Verif.Props.Cli
import Verif.Props.Exec
import Verif.Props.Patching
import Verif.Props.Gather
import Verif.Props.Hashing
import Verif.Props.Objects
import Verif.Props.Images
import Verif.Props.ParallelRun
import Verif.Props.Sessions
import Verif.Props.Loads
import Verif.Props.SnapshotFiles
import Verif.Props.SameFiles
import Verif.Props.FairRun
import Verif.Props.ExecWorkers
import Verif.Props.Passing
import Verif.Props.Values
import Verif.Props.Dependents
import Verif.Props.DependentsWorkers
import Verif.Props.ExecDependents
import Verif.Props.PassingDependents
import Verif.Props.TmpFiles
import Verif.Props.Asking
import Verif.Props.Afterwards
import Verif.Props.AskedTogether
import Verif.Props.ReviewNeeds
import Verif.Props.ReviewLater
import Verif.Props.ReviewWorkers
import Verif.Props.ReviewPass
import Verif.Props.ReviewAgain
import Verif.Props.ReviewDays
