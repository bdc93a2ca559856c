import Verif.Collections
import Verif.Types
import Verif.Model
import Verif.Spec
import Verif.Lemmas.Step
import Verif.Lemmas.Run
import Verif.Lemmas.Loop
import Verif.Lemmas.Main
import Verif.Lemmas.Trace
import Verif.Lemmas.Outcome
import Verif.Demo
import Verif.Props.Blocks
import Verif.Props.Effects
import Verif.Props.Runs
import Verif.Props.Seals
import Verif.Laws
import Verif.Lemmas.Laws
import Verif.Props.History
import Verif.Props.Streams
import Verif.Bitcoin
import Verif.Encoding
import Verif.TestContract
import Verif.UnitTests
import Verif.Props.Owners
import Verif.Props.TestContract
import Verif.Props.Bitcoin
import Verif.Props.Encoding
import Verif.Props.UnitTests
import Verif.Props.Conflicts
import Verif.Props.Merging
import Verif.Props.Continuation
import Verif.Props.Bounds
import Verif.Props.Phantom
import Verif.Props.Data
import Verif.Serde
import Verif.Props.Serde
import Verif.ErrorText
import Verif.Props.ErrorText
import Verif.Props.Evidence
import Verif.Props.Supply
import Verif.Environment
import Verif.Lemmas.Environment
import Verif.Props.Environment
import Verif.Props.Isolation
import Verif.Props.Recovery
import Verif.Props.Excerpts
import Verif.Props.Convergence
import Verif.Props.Reanchoring
import Verif.Props.Separation
import Verif.Props.Auditors
import Verif.Props.Guards
import Verif.Props.Agreement
import Verif.Props.Files
import Verif.Props.Disclosure
import Verif.Props.Authenticity
import Verif.Props.Receipt
import Verif.Props.Relabelling
import Verif.Props.RunHelper
import Verif.Props.Protocols
import Verif.Props.Sharing
import Verif.Props.Backup
import Verif.Props.Gossip
import Verif.Props.Retrying
import Verif.Props.Withdrawal
import Verif.Props.Reports
import Verif.Props.Repetitions
import Verif.Props.Unspent
import Verif.Props.Demonstration
import Verif.Props.Payments
import Verif.Props.Network
