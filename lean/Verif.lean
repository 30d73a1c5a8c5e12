import Verif.Model.Base
import Verif.Model.Cli
import Verif.Model.CliCredentials
import Verif.Model.CredentialTraits
import Verif.Model.Credentials
import Verif.Model.CryptFile
import Verif.Model.CryptStreams
import Verif.Model.Crypto
import Verif.Model.Endian
import Verif.Model.Filesystem
import Verif.Model.GenKeys
import Verif.Model.GenKeysShared
import Verif.Model.Getopts
import Verif.Model.Gf256
import Verif.Model.HeaderCrypto
import Verif.Model.HeaderIO
import Verif.Model.Help
import Verif.Model.Hex
import Verif.Model.Human
import Verif.Model.KeyText
import Verif.Model.Naming
import Verif.Model.Passwords
import Verif.Model.Paths
import Verif.Model.Permissions
import Verif.Model.Pipeline
import Verif.Model.PipelineFine
import Verif.Model.Program
import Verif.Model.ProgramTalk
import Verif.Model.Progress
import Verif.Model.ProgressText
import Verif.Model.Proto
import Verif.Model.Reports
import Verif.Model.Shamir
import Verif.Model.Shared
import Verif.Model.Sodium
import Verif.Model.StreamCrypto
import Verif.Model.Talk
import Verif.Model.Termios
import Verif.Model.Text
import Verif.Model.UI
import Verif.Spec.Access
import Verif.Spec.Chunking
import Verif.Spec.Cli
import Verif.Spec.CliCredentials
import Verif.Spec.CliPanic
import Verif.Spec.CredentialTraits
import Verif.Spec.CryptStreams
import Verif.Spec.Encryptable
import Verif.Spec.File
import Verif.Spec.Framing
import Verif.Spec.GenKeys
import Verif.Spec.GenKeysSaid
import Verif.Spec.GenKeysShared
import Verif.Spec.Getopts
import Verif.Spec.Gf256
import Verif.Spec.HeaderFormat
import Verif.Spec.Help
import Verif.Spec.Hex
import Verif.Spec.Human
import Verif.Spec.Instances
import Verif.Spec.Interchange
import Verif.Spec.KeyText
import Verif.Spec.Later
import Verif.Spec.Lines
import Verif.Spec.Naming
import Verif.Spec.Nesting
import Verif.Spec.OneByOne
import Verif.Spec.Order
import Verif.Spec.Pipeline
import Verif.Spec.Program
import Verif.Spec.Progress
import Verif.Spec.ProgressText
import Verif.Spec.Reorder
import Verif.Spec.Shape
import Verif.Spec.Shared
import Verif.Spec.Sodium
import Verif.Spec.Talk
import Verif.Spec.Toy
import Verif.Spec.UI
import Verif.Spec.Uses
import Verif.Spec.Wire
import Verif.Proofs.CanSucceed
import Verif.Proofs.Chunking
import Verif.Proofs.Cli
import Verif.Proofs.CliCredentials
import Verif.Proofs.CliFrame
import Verif.Proofs.CliPanic
import Verif.Proofs.CliSafe
import Verif.Proofs.Crashes
import Verif.Proofs.CryptStreams
import Verif.Proofs.CryptStreamsEnd
import Verif.Proofs.Crypto
import Verif.Proofs.DebugText
import Verif.Proofs.Endian
import Verif.Proofs.File
import Verif.Proofs.GenKeys
import Verif.Proofs.GenKeysAlone
import Verif.Proofs.GenKeysMany
import Verif.Proofs.GenKeysMoments
import Verif.Proofs.GenKeysSaid
import Verif.Proofs.GenKeysShared
import Verif.Proofs.Getopts
import Verif.Proofs.Gf256
import Verif.Proofs.Header
import Verif.Proofs.HeaderCan
import Verif.Proofs.HeaderFormat
import Verif.Proofs.HeaderPanic
import Verif.Proofs.Help
import Verif.Proofs.Hex
import Verif.Proofs.Human
import Verif.Proofs.Instances
import Verif.Proofs.KeyFileParts
import Verif.Proofs.KeyText
import Verif.Proofs.Later
import Verif.Proofs.Naming
import Verif.Proofs.Nesting
import Verif.Proofs.NewFiles
import Verif.Proofs.NoPanic
import Verif.Proofs.OneByOne
import Verif.Proofs.Order
import Verif.Proofs.Passwords
import Verif.Proofs.Permissions
import Verif.Proofs.Pipeline
import Verif.Proofs.PipelineEnd
import Verif.Proofs.PipelineFine
import Verif.Proofs.Program
import Verif.Proofs.Progress
import Verif.Proofs.ProgressText
import Verif.Proofs.Proto
import Verif.Proofs.QuietRun
import Verif.Proofs.Reorder
import Verif.Proofs.Reports
import Verif.Proofs.RunEnds
import Verif.Proofs.Secrecy
import Verif.Proofs.Shamir
import Verif.Proofs.Shape
import Verif.Proofs.Shared
import Verif.Proofs.SlowCrash
import Verif.Proofs.SplitKey
import Verif.Proofs.StreamCrypto
import Verif.Proofs.StreamMode
import Verif.Proofs.Talk
import Verif.Proofs.TalkDone
import Verif.Proofs.TalkLift
import Verif.Proofs.TalkLines
import Verif.Proofs.TalkPhases
import Verif.Proofs.TalkSizes
import Verif.Proofs.TalkTerm
import Verif.Proofs.Text
import Verif.Proofs.TokenOrder
import Verif.Proofs.Tree
import Verif.Proofs.UI
import Verif.Proofs.Uses
import Verif.Proofs.Wire
import Verif.Proofs.WireMessages
import Verif.Props.Access
import Verif.Props.CliCredentials
import Verif.Props.CommandLine
import Verif.Props.CommandLinePanic
import Verif.Props.Commands
import Verif.Props.Crashes
import Verif.Props.CredentialTraits
import Verif.Props.CryptStreams
import Verif.Props.DebugText
import Verif.Props.Exchange
import Verif.Props.Expressible
import Verif.Props.File
import Verif.Props.Framing
import Verif.Props.GenKeys
import Verif.Props.GenKeysSaid
import Verif.Props.GenKeysShared
import Verif.Props.Header
import Verif.Props.HeaderFormat
import Verif.Props.Help
import Verif.Props.Human
import Verif.Props.Instances
import Verif.Props.Interchange
import Verif.Props.KeyFileParts
import Verif.Props.KeyText
import Verif.Props.Later
import Verif.Props.Memory
import Verif.Props.Naming
import Verif.Props.Nesting
import Verif.Props.OneByOne
import Verif.Props.Order
import Verif.Props.Permissions
import Verif.Props.Pipeline
import Verif.Props.PipelineFine
import Verif.Props.Possible
import Verif.Props.Program
import Verif.Props.ProgramFailureSamples
import Verif.Props.ProgramFailures
import Verif.Props.ProgramKeys
import Verif.Props.ProgramSamples
import Verif.Props.Progress
import Verif.Props.ProgressText
import Verif.Props.Reorder
import Verif.Props.Reports
import Verif.Props.Rerun
import Verif.Props.RerunSamples
import Verif.Props.RunEnds
import Verif.Props.Samples
import Verif.Props.Secrecy
import Verif.Props.Shared
import Verif.Props.Sharing
import Verif.Props.SlowCrash
import Verif.Props.Sodium
import Verif.Props.StreamSamples
import Verif.Props.Talk
import Verif.Props.TalkDone
import Verif.Props.TalkDoneSamples
import Verif.Props.TalkSamples
import Verif.Props.UI
import Verif.Props.Uses
import Verif.Props.Wire
import Verif.Props.WireFormat
import Verif.Axioms
