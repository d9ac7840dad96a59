import Verif.Props.Primitives
import Verif.Props.Requests
import Verif.Props.Parse
import Verif.Props.Messages
import Verif.Props.Compression
import Verif.Props.Connection
import Verif.Props.Errors
import Verif.Props.Cluster
import Verif.Props.Client
import Verif.Props.Iterables
import Verif.Props.Producer
import Verif.Props.Consumer
import Verif.Props.Single
import Verif.Props.Grouped
import Verif.Props.Coordinator
import Verif.Props.Rebalance
import Verif.Props.Commit
import Verif.Props.Allocator
import Verif.Props.Notify
import Verif.Props.Startup
import Verif.Props.SharedSet
import Verif.Props.Party
import Verif.Props.EndToEnd
import Verif.Props.Wire
import Verif.Props.Settings
import Verif.Props.Healing
import Verif.Props.Closing
import Verif.Props.Codes
import Verif.Props.Checksums
import Verif.Props.Responses
import Verif.Props.Order
import Verif.Props.Overlap
import Verif.Props.Offsets
import Verif.Props.Heals
import Verif.Props.Witness
import Verif.Props.Group
import Verif.Props.Progress
import Verif.Props.Ledger
import Verif.Props.Gather
import Verif.Props.Equality
import Verif.Props.Refresh
import Verif.Model.Connect
import Verif.Props.Connect
import Verif.Props.Heal
import Verif.Props.Silent
import Verif.Props.Json
import Verif.Props.Exhaustion
import Verif.Props.Handover
import Verif.Props.Link
import Verif.Props.Delivery
import Verif.Props.Pipeline
import Verif.Props.Settled
import Verif.Props.GroupPipeline
import Verif.Props.Sends
import Verif.Props.GroupOverlap
import Verif.Props.HealAgain
import Verif.Props.FirstConsumes
import Verif.Props.Alone
import Verif.Props.Endings
import Verif.Props.GroupAlone
import Verif.Props.FirstGrouped
import Verif.Props.Produces
import Verif.Props.ProducerAlone
import Verif.Props.Stored
import Verif.Props.ProducerHeals
import Verif.Props.CallsHistory
import Verif.Props.CallsPipeline
import Verif.Props.JsonText
import Verif.Props.Fleet
import Verif.Props.FleetPipeline
import Verif.Props.Band
import Verif.Props.Encodings
import Verif.Props.BandPipeline
import Verif.Props.Genuine
import Verif.Props.InTurn
import Verif.Props.KeyOrder
import Verif.Props.Limits
import Verif.Props.Keeps
import Verif.Props.Records
import Verif.Props.Preamble
import Verif.Props.NoShare
import Verif.Props.Show
import Verif.Props.Refused
import Verif.Props.Names
import Verif.Props.Bootstrap
import Verif.Props.Halves
import Verif.Props.Agree
import Verif.Props.LateTopic
import Verif.Props.AutoCreate
import Verif.Props.OutOfRange
import Verif.Props.Begin
import Verif.Props.Unanswered
import Verif.Props.KeyPlaces
import Verif.Props.Staff
import Verif.Props.Leaderless
import Verif.Props.Elections
import Verif.Props.Forgotten
import Verif.Props.Wired
import Verif.Props.Noticed
import Verif.Props.Answering
import Verif.Props.Asking
import Verif.Props.Booting
import Verif.Props.AskingAgrees
