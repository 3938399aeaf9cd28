import Verif.Py.Str
import Verif.Py.Base64
import Verif.Py.Message
import Verif.Py.Regex
import Verif.Py.Version
import Verif.Model.Exc
import Verif.Model.Group
import Verif.Model.Entry
import Verif.Model.Executable
import Verif.Model.Texts
import Verif.Model.Prog
import Verif.Model.Store
import Verif.Model.States
import Verif.Model.Env
import Verif.Model.Mime
import Verif.Model.Recommendation
import Verif.Model.BinGPG
import Verif.Model.Account
import Verif.Spec.Mail
import Verif.Lemmas.Run
import Verif.Lemmas.Store
import Verif.Lemmas.Peer
import Verif.Model.Api
import Verif.Lemmas.Safe
import Verif.Lemmas.SafeApi
import Verif.Lemmas.SafeCalls
import Verif.Lemmas.Composed
import Verif.Lemmas.Names
import Verif.Lemmas.Reach
import Verif.Spec.Concrete
import Verif.Props.Names
import Verif.Props.PeerState
import Verif.Props.PeerOrder
import Verif.Props.PeerHistory
import Verif.Lemmas.PyStr
import Verif.Lemmas.Mime
import Verif.Lemmas.Provenance
import Verif.Props.Incoming
import Verif.Props.IncomingScope
import Verif.Props.IncomingErrors
import Verif.Props.Header
import Verif.Props.Recommendation
import Verif.Lemmas.Events
import Verif.Lemmas.Regex
import Verif.Props.EncryptCourse
import Verif.Props.OutgoingCourse
import Verif.Props.Encrypt
import Verif.Props.Outgoing
import Verif.Props.OutgoingExamples
import Verif.Props.ReadOnly
import Verif.Lemmas.Built
import Verif.Props.Gpg
import Verif.Props.Listing
import Verif.Props.AccountsBase
import Verif.Props.Accounts
import Verif.Props.AccountChanges
import Verif.Props.Lookup
import Verif.Props.AccountHistory
import Verif.Props.Import
import Verif.Model.Chainstore
import Verif.Spec.ConcreteCodec
import Verif.Props.Storage
import Verif.Props.StorageHistory
import Verif.Model.Crash
import Verif.Props.Crash
import Verif.Model.Processes
import Verif.Props.Processes
import Verif.Props.Serial
import Verif.Props.CachedProperty
import Verif.Props.Log
import Verif.Props.Decision
import Verif.Model.Cmdline
import Verif.Props.Cmdline
import Verif.Props.GpgHome
import Verif.Model.Bot
import Verif.Props.Bot
import Verif.Props.Message
import Verif.Props.Failures
import Verif.Props.Gossip
import Verif.Props.Exchange
import Verif.Props.ExchangeExamples
import Verif.Model.Commands
import Verif.Props.Commands
import Verif.Props.CommandOutput
import Verif.Props.IncomingOutput
import Verif.Props.CommandChanges
import Verif.Props.Status
import Verif.Props.BotReply
import Verif.Props.BotFields
import Verif.Props.GpgOps
import Verif.Props.Packets
import Verif.Props.Interrupted
import Verif.Props.CrashCalls
import Verif.Lemmas.BuiltCmd
import Verif.Props.CommandFailures
import Verif.Props.Result
import Verif.Props.MimeStructure
import Verif.Props.DecryptKeys
import Verif.Props.Version
import Verif.Props.Executable
import Verif.Props.BotReport
import Verif.Props.KeyOrigin
import Verif.Props.Views
import Verif.Props.Pieces
import Verif.Props.GpgTasks
import Verif.Props.Text
import Verif.Props.Removal
import Verif.Props.Again
import Verif.Model.Faults
import Verif.Props.IOErrors
import Verif.Props.Relevant
import Verif.Props.Confidential
import Verif.Props.Within
import Verif.Props.Readers
import Verif.Props.Remembered
import Verif.Model.Accesses
import Verif.Props.Accesses
import Verif.Props.Meanwhile
import Verif.Lemmas.Paths
import Verif.Props.Anyhow
import Verif.Props.AnyhowIncoming
import Verif.Lemmas.Keeps
import Verif.Lemmas.KeepsCalls
import Verif.Lemmas.KeepsCmd
import Verif.Props.EveryRun
import Verif.Lemmas.Secret
import Verif.Lemmas.SecretCalls
import Verif.Lemmas.SecretCmd
import Verif.Props.Secret
import Verif.Lemmas.Blind
import Verif.Props.Sight
import Verif.Lemmas.Looks
import Verif.Props.Others
import Verif.Props.AnyTime
import Verif.Props.AnyOrder
import Verif.Props.Texts
import Verif.Props.Unaffected
import Verif.Spec.Level1
import Verif.Props.Level1
import Verif.Model.Windows
import Verif.Props.Windows
import Verif.Lemmas.Mailless
import Verif.Props.HowMuch
import Verif.Lemmas.Hands
import Verif.Lemmas.HandsCmd
import Verif.Props.Arguments
import Verif.Props.ImportFails
import Verif.Props.Folding
import Verif.Props.BotLoops
import Verif.Props.HeaderOrder
import Verif.Props.Devices
import Verif.Props.SameMail
import Verif.Props.Forged
import Verif.Props.OwnKept
import Verif.Props.WhoseKey
import Verif.Props.Damaged
import Verif.Props.OtherFields
import Verif.Props.Help
import Verif.Props.Slipped
import Verif.Props.Unsaid
import Verif.Props.StaysKnown
import Verif.Props.Verified
import Verif.Props.ListedLater
import Verif.Props.ArgumentsEver
import Verif.Props.ScanTime
import Verif.Props.SameGossip
import Verif.Props.HowOften
import Verif.Props.ImportTime
