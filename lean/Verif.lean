import Verif.Bytes.Props
import Verif.Choices.Props
import Verif.Compare.Elements
import Verif.Tables.Props
import Verif.Hashing.Props
import Verif.DType.Props
import Verif.XType.Props
import Verif.OIDs.Race
import Verif.Registry.Props
import Verif.Alloc.Props
import Verif.Pools.Props
import Verif.KPool.Props
import Verif.Index.Props
import Verif.Bloom.Props
import Verif.Walk.Props
import Verif.Apply.Props
import Verif.Bigint.Props
import Verif.Numbers.Props
import Verif.KIndex.CrashProps
import Verif.Text.Props
import Verif.Streams.Props
import Verif.Refs.Props
import Verif.Symbols.Props
import Verif.Seqs.Props
import Verif.Envs.Props
import Verif.TextMatch.Props
import Verif.Finder.Props
import Verif.Frames.Props
import Verif.Json.Props
import Verif.Sorting.Props
import Verif.Memo.Props
import Verif.Promises.Props
import Verif.LogIndex.Props
import Verif.Quasi.Props
import Verif.Errors.Props
import Verif.Uri.Props
import Verif.Modules.Props
import Verif.Aggregates.Props
import Verif.Options.Props
import Verif.Threads.Props
import Verif.Xml.Props
import Verif.Control.Props
import Verif.FileIndex.Props
import Verif.FileIndex.Far
import Verif.Strings.Props
import Verif.FilePool.Props
import Verif.Configs.Props
import Verif.Calls.Props
import Verif.TableOps.Props
import Verif.NumText.Props
import Verif.OIDArith.Props
import Verif.Virtual.Props
import Verif.Requests.Props
import Verif.History.Props
import Verif.ProcStore.Props
import Verif.Compounds.Props
import Verif.CoreOps.Props
import Verif.NetStore.Props
import Verif.Times.Props
import Verif.Words.Props
import Verif.Phonetic.Props
import Verif.TextPrims.Props
