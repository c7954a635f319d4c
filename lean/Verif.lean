import Verif.Model.Acker
import Verif.Model.Adapters
import Verif.Model.Amqp
import Verif.Model.Arith
import Verif.Model.Broadcast
import Verif.Model.Chain
import Verif.Model.Chan
import Verif.Model.Cli
import Verif.Model.Connection
import Verif.Model.Contig
import Verif.Model.ContigConc
import Verif.Model.Coord
import Verif.Model.Exec
import Verif.Model.Fold
import Verif.Model.FoldFine
import Verif.Model.Hello
import Verif.Model.IdxStream
import Verif.Model.InMem
import Verif.Model.Life
import Verif.Model.Literal
import Verif.Model.Lts
import Verif.Model.MapLong
import Verif.Model.MapPoll
import Verif.Model.MapS
import Verif.Model.Messages
import Verif.Model.Notice
import Verif.Model.Prelude
import Verif.Model.Program
import Verif.Model.PubAll
import Verif.Model.Restart
import Verif.Model.Retry
import Verif.Model.Setup
import Verif.Model.System
import Verif.Model.SystemAmqp
import Verif.Model.SystemBytes
import Verif.Model.SystemClients
import Verif.Model.SystemMem
import Verif.Model.Wire
import Verif.Model.Worker
import Verif.Proofs.Abandon
import Verif.Proofs.Aftermath
import Verif.Proofs.AftermathAmqp
import Verif.Proofs.Alone
import Verif.Proofs.Amqp
import Verif.Proofs.AmqpData
import Verif.Proofs.AmqpPipe
import Verif.Proofs.AmqpServe
import Verif.Proofs.AmqpSys
import Verif.Proofs.Broadcast
import Verif.Proofs.BroadcastCons
import Verif.Proofs.BroadcastDeliver
import Verif.Proofs.BroadcastEnd
import Verif.Proofs.BroadcastInv
import Verif.Proofs.Chan
import Verif.Proofs.Cli
import Verif.Proofs.Connection
import Verif.Proofs.Contig
import Verif.Proofs.ContigConc
import Verif.Proofs.ContigMiss
import Verif.Proofs.Coord
import Verif.Proofs.CoordCalls
import Verif.Proofs.Crowd
import Verif.Proofs.Exec
import Verif.Proofs.Fails
import Verif.Proofs.FoldEnd
import Verif.Proofs.FoldFine
import Verif.Proofs.FoldLive
import Verif.Proofs.FoldPart
import Verif.Proofs.FoldSafe
import Verif.Proofs.FoldTree
import Verif.Proofs.Gone
import Verif.Proofs.Hello
import Verif.Proofs.InMem
import Verif.Proofs.InOrder
import Verif.Proofs.Life
import Verif.Proofs.Lts
import Verif.Proofs.MapLong
import Verif.Proofs.MapPub
import Verif.Proofs.MapS
import Verif.Proofs.Notice
import Verif.Proofs.PollMap
import Verif.Proofs.Program
import Verif.Proofs.ProgramEnd
import Verif.Proofs.PubAll
import Verif.Proofs.PubMap
import Verif.Proofs.Restart
import Verif.Proofs.Retry
import Verif.Proofs.Setup
import Verif.Proofs.Share
import Verif.Proofs.Solo
import Verif.Proofs.System
import Verif.Proofs.SystemAmqp
import Verif.Proofs.SystemAmqpEnds
import Verif.Proofs.SystemAmqpLive
import Verif.Proofs.SystemBytes
import Verif.Proofs.SystemClients
import Verif.Proofs.SystemCount
import Verif.Proofs.SystemEnds
import Verif.Proofs.SystemFails
import Verif.Proofs.SystemFailsDir
import Verif.Proofs.SystemLive
import Verif.Proofs.SystemLoss
import Verif.Proofs.SystemMem
import Verif.Proofs.Util
import Verif.Proofs.Wire
import Verif.Proofs.WireDepth
import Verif.Proofs.WireMono
import Verif.Proofs.Worker
import Verif.Proofs.WorkerTime
import Verif.Props.Abandon
import Verif.Props.Abort
import Verif.Props.AbortAmqp
import Verif.Props.AbortJobs
import Verif.Props.AbortMem
import Verif.Props.Acker
import Verif.Props.Adapters
import Verif.Props.Aftermath
import Verif.Props.AftermathAmqp
import Verif.Props.Alone
import Verif.Props.Amqp
import Verif.Props.AmqpClose
import Verif.Props.AmqpLasts
import Verif.Props.AmqpMore
import Verif.Props.AmqpPipe
import Verif.Props.Arith
import Verif.Props.Chain
import Verif.Props.Chan
import Verif.Props.Cli
import Verif.Props.Connection
import Verif.Props.Contig
import Verif.Props.ContigConc
import Verif.Props.Coord
import Verif.Props.Crowd
import Verif.Props.Exec
import Verif.Props.ExecForeign
import Verif.Props.Fails
import Verif.Props.Fold
import Verif.Props.FoldFine
import Verif.Props.FoldLive
import Verif.Props.Gone
import Verif.Props.Hello
import Verif.Props.IdxStream
import Verif.Props.InMem
import Verif.Props.InOrder
import Verif.Props.Life
import Verif.Props.Literal
import Verif.Props.MapDup
import Verif.Props.MapLive
import Verif.Props.MapLong
import Verif.Props.MapPoll
import Verif.Props.MapS
import Verif.Props.MemBytes
import Verif.Props.Notice
import Verif.Props.PollMap
import Verif.Props.Program
import Verif.Props.PubAll
import Verif.Props.PubMap
import Verif.Props.Restart
import Verif.Props.Retry
import Verif.Props.Setup
import Verif.Props.Share
import Verif.Props.Solo
import Verif.Props.SoloDone
import Verif.Props.SoloPipe
import Verif.Props.SortedDone
import Verif.Props.SortedReached
import Verif.Props.System
import Verif.Props.SystemAmqp
import Verif.Props.SystemBytes
import Verif.Props.SystemFails
import Verif.Props.SystemLive
import Verif.Props.SystemLoss
import Verif.Props.SystemMem
import Verif.Props.SystemPipe
import Verif.Props.Wire
import Verif.Props.WireDepth
import Verif.Props.Worker
import Verif.Spec.Abandon
import Verif.Spec.Abort
import Verif.Spec.Aftermath
import Verif.Spec.AftermathAmqp
import Verif.Spec.Alone
import Verif.Spec.Amqp
import Verif.Spec.AmqpPipe
import Verif.Spec.Broadcast
import Verif.Spec.Chan
import Verif.Spec.Cli
import Verif.Spec.Connection
import Verif.Spec.Contig
import Verif.Spec.ContigConc
import Verif.Spec.Exec
import Verif.Spec.Fails
import Verif.Spec.Feeds
import Verif.Spec.Fold
import Verif.Spec.FoldFine
import Verif.Spec.FoldTrace
import Verif.Spec.Gone
import Verif.Spec.Hello
import Verif.Spec.InMem
import Verif.Spec.Life
import Verif.Spec.MapLong
import Verif.Spec.MapTrace
import Verif.Spec.MemBytes
import Verif.Spec.Notice
import Verif.Spec.PollMap
import Verif.Spec.Program
import Verif.Spec.PubAll
import Verif.Spec.PubMap
import Verif.Spec.Restart
import Verif.Spec.Retry
import Verif.Spec.Setup
import Verif.Spec.Share
import Verif.Spec.System
import Verif.Spec.SystemAmqp
import Verif.Spec.SystemBytes
import Verif.Spec.SystemClients
import Verif.Spec.SystemMem
import Verif.Spec.SystemPipe
import Verif.Spec.Wire
import Verif.Spec.WireDepth
import Verif.Spec.Worker
