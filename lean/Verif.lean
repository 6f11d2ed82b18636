import Verif.Props.Utils
import Verif.Props.BitManipulation
import Verif.Props.Queue
import Verif.Props.PriorityQueue
import Verif.Props.PriorityQueueOrder
import Verif.Props.PriorityQueueLines
import Verif.Props.Map
import Verif.Props.Scheduler
import Verif.Props.Sort
import Verif.Props.ChaCha20
import Verif.Props.Cipher
import Verif.Props.Base64
import Verif.Props.Crc
import Verif.Props.Json
import Verif.Props.CrcErrors
import Verif.Props.CipherMore
import Verif.Props.UtilsMore
import Verif.Props.CrcForge
import Verif.Props.JsonGrammar
import Verif.Props.JsonHuge
import Verif.Props.Pipeline
import Verif.Props.SortElems
import Verif.Props.Comparators
import Verif.Props.MapLimits
import Verif.Props.System
import Verif.Props.CrcBursts
import Verif.Props.CrcDistinct
import Verif.Props.QueueSteps
import Verif.Props.SortEffects
import Verif.Props.Leak
import Verif.Props.LeakContainers
import Verif.Props.Ilp32
import Verif.Props.Size16
import Verif.Props.Base64More
import Verif.Props.PriorityQueueLimit
import Verif.Props.SortLimits
import Verif.Props.Aliasing
import Verif.Props.CrcReach
import Verif.Props.SortNested
import Verif.Props.CrcZeros
import Verif.Props.CrcExchange
import Verif.Props.Overlap
import Verif.Props.PriorityQueueInterrupt
import Verif.Props.SchedulerSpawn
import Verif.Props.MapInterrupt
import Verif.Props.TextOverlap
import Verif.Props.Disorder
import Verif.Props.MapOwn
import Verif.Props.SchedulerInterrupt
import Verif.Props.Deliver
import Verif.Props.CipherOverlap
import Verif.Props.IntWidth
import Verif.Props.SortMoves
import Verif.Props.Base64Pieces
import Verif.Props.SortTwins
import Verif.Props.SortKeys
import Verif.Props.PriorityQueueUses
import Verif.Props.CrcCipher
import Verif.Props.Rollback
import Verif.Props.MapOrder
import Verif.Props.Base64Slips
import Verif.Props.Cost
import Verif.Spec.Records
import Verif.Props.Records
import Verif.Spec.QueueChain
import Verif.Props.QueueChain
import Verif.Props.JsonFinal
import Verif.Props.MapGuess
import Verif.Props.JsonCost
import Verif.Props.JsonBuildCost
import Verif.Props.LeakJson
import Verif.Props.LeakJsonBuild
import Verif.Props.LeakBase64
import Verif.Props.LeakNumber
import Verif.Props.LeakSort
import Verif.Props.SortCost
import Verif.Props.LeakBytes
import Verif.Props.LeakScheduler
