import Verif.Props.Fnv
import Verif.Props.Bitbucket
import Verif.Props.Bloom
import Verif.Props.Hll
import Verif.Props.Bufmap
import Verif.Props.IncmapConc
import Verif.Props.BufmapConc
import Verif.Props.BufmapAlone
import Verif.Props.Seqlock
import Verif.Props.Stat64
import Verif.Props.HllEst
import Verif.Props.HllMono
import Verif.Props.HllErtl
import Verif.Props.HllErtlMono
import Verif.Props.Collation
import Verif.Props.Record
import Verif.Props.RecordBuf
import Verif.Props.Store
import Verif.Props.StoreRun
import Verif.Props.StoreConc
import Verif.Props.StoreStats
import Verif.Props.StoreRace
import Verif.Props.StoreSeq
import Verif.Props.Query
import Verif.Props.Server
import Verif.Props.EndToEnd
import Verif.Props.Stats
import Verif.Props.TestUtil
import Verif.Props.BloomEst
import Verif.Props.BloomRate
import Verif.Props.IncmapSeq
import Verif.Props.IncmapAlone
import Verif.Props.ServerConc
import Verif.Props.ServerAlone
import Verif.Props.ServerCancel
import Verif.Props.ServerStats
import Verif.Props.ServerStatsSeq
import Verif.Props.Stat64Buf
import Verif.Props.See
import Verif.Props.Lifecycle
import Verif.Props.Ieee
import Verif.Props.TestUtilInf
import Verif.Props.BufmapLive
import Verif.Props.BufmapSilent
import Verif.Props.SeqlockLive
import Verif.Props.IncmapLive
import Verif.Props.Starve
import Verif.Props.StoreLive
import Verif.Props.WithBytes
import Verif.Props.HllHostile
import Verif.Props.Path
import Verif.Props.MeasureBuf
import Verif.Proof.ServerReplies
import Verif.Props.ServerReplies
import Verif.Props.Counts
import Verif.Spec.ServerRun
import Verif.Proof.ServerLive
import Verif.Props.ServerLive
import Verif.Props.ServerSilent
import Verif.Proof.ServerDriven
import Verif.Props.ServerRace
import Verif.Props.ServerMeasures
import Verif.Props.DisplacedConc
import Verif.Props.DisplacedConcDemo
import Verif.Spec.Answer
import Verif.Proof.Answer
import Verif.Proof.QueryBytes
import Verif.Props.Answer
import Verif.Proof.ReadPanic
import Verif.Props.ReadPanic
import Verif.Props.ServerPanic
import Verif.Proof.FieldOrder
import Verif.Props.Packaging
import Verif.Props.PackagingDemo
import Verif.Proof.Accepted
import Verif.Props.Accepted
import Verif.Props.Order
import Verif.Props.OrderDemo
import Verif.Spec.Seats
import Verif.Proof.Seats
import Verif.Proof.AcceptedAny
import Verif.Props.AcceptedAny
import Verif.Props.AcceptedDemo
import Verif.Spec.Displaced
import Verif.Props.Displaced
import Verif.Props.DisplacedServer
import Verif.Props.DisplacedDemo
import Verif.Props.PanicLaw
import Verif.Props.CountLaw
import Verif.Props.Capacity
import Verif.Props.CapacityDemo
import Verif.Props.BloomEdge
import Verif.Props.ZeroValue
import Verif.Props.Monotone
import Verif.Props.MonotoneDemo
import Verif.Props.MonotoneCount
import Verif.Props.ReadmeData
import Verif.Props.Readme
import Verif.Props.ReadmeFacts
import Verif.Props.ReadmeAnswer
import Verif.Spec.Precision
import Verif.Props.Precision
import Verif.Props.PrecisionDemo
import Verif.Props.Neighbours
import Verif.Spec.Unknown
import Verif.Props.Unknown
import Verif.Props.Together
import Verif.Props.Criteria
import Verif.Props.Extremes
import Verif.Props.Again
import Verif.Props.Fit
import Verif.Props.Rising
import Verif.Props.RisingMore
import Verif.Props.RisingRace
import Verif.Props.RisingDemo
import Verif.Props.Values
import Verif.Props.Untouched
import Verif.Props.UntouchedDemo
import Verif.Props.UntouchedRace
import Verif.Props.UntouchedRaceDemo
import Verif.Props.UnknownRace
import Verif.Props.AnswerRace
import Verif.Props.UnknownRaceDemo
import Verif.Props.ReadBackRace
import Verif.Props.ReadBackRaceDemo
import Verif.Props.NeighboursRace
import Verif.Props.AloneRace
import Verif.Props.NeighboursRaceDemo
import Verif.Props.TogetherRace
import Verif.Props.TogetherRaceDemo
import Verif.Proof.ServerCut
import Verif.Props.CancelRace
import Verif.Props.UniqueConcDemo
