import Verif.Props.Signature
import Verif.Props.Keygen
import Verif.Props.KeygenMalicious
import Verif.Props.KeygenSM
import Verif.Props.Mta
import Verif.Props.Pdl
import Verif.Props.Sign
import Verif.Props.SignSM
import Verif.Props.SignPanic
import Verif.Props.Blame
import Verif.Props.SignChecks
import Verif.Props.GG18
import Verif.Props.StartedTwice
import Verif.Props.TooFewSigners
import Verif.Props.TwoParty
import Verif.Props.Server
import Verif.Props.Managers
import Verif.Props.GG18Clients
import Verif.Props.Curve
import Verif.Props.Network
import Verif.Props.Message
import Verif.Props.KeygenAgreement
import Verif.Props.EndToEnd
import Verif.Props.Driver
import Verif.Props.Room
import Verif.Props.SigningDemo
import Verif.Props.Hashing
import Verif.Props.MtaLeak
import Verif.Props.Params
import Verif.Props.Secrecy
import Verif.Props.ZeroKnowledge
import Verif.Props.GG18Malicious
import Verif.Props.Reliability
import Verif.Props.SignSecrecy
import Verif.Props.MessageSecrecy
import Verif.Props.GG18Room
import Verif.Props.Wakeup
import Verif.Props.RoundOrder
import Verif.Props.Replay
import Verif.Props.ReplayGG18
import Verif.Props.Contributions
import Verif.Props.Knowledge
import Verif.Props.Hiding
import Verif.Props.OpenRoom
import Verif.Props.SelectiveFailure
import Verif.Props.KeygenBlame
import Verif.Props.Culprits
import Verif.Props.HonestNotNamed
import Verif.Props.ShareAttack
import Verif.Props.NonceReuse
import Verif.Props.OneSource
import Verif.Props.Backup
import Verif.Props.Refresh
import Verif.Props.NeutralKey
import Verif.Props.NonceAgreement
import Verif.Props.OneSignature
import Verif.Props.MixedThresholds
import Verif.Props.ReleaseEnds
import Verif.Props.PdlCheat
import Verif.Props.MixedClients
import Verif.Props.MixedKeys
import Verif.Props.MixedFiles
import Verif.Props.MixedCounts
import Verif.Props.MixedLists
import Verif.Props.DebugText
import Verif.Props.MixedMessages
import Verif.Props.MixedSessions
import Verif.Props.BlameExact
import Verif.Props.BlameSession
import Verif.Props.WrongPlace
import Verif.Props.ToldNumbers
import Verif.Props.WhoseMessage
import Verif.Props.MixedShares
import Verif.Props.CrossedSessions
import Verif.Props.TwoPartyReliability
import Verif.Props.RareRecid
import Verif.Props.FreshNonces
import Verif.Props.RecidSessions
import Verif.Props.FreshKeys
