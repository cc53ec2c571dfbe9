import Verif.KIndex.Model
import Verif.KPool.Crash

/-!
# A commit, act by act

Model of the phases of `kindex_commit` (src/drivers/kindex.c:2449-2575) with the writes of
`kindex_save` and `update_kindex_ondisk` (2646-2810).  What a crash may leave is specified in
`Verif/KPool/Crash.lean`.
-/

namespace Kno.KIndex

open Kno.Bytes
open Kno.KPool (File Write Fmt Ref Act)
open Kno.Index (Entry)

variable {K V S : Type} [DecidableEq K] [DecidableEq V] [DecidableEq S]

/-- The head that the rollback file has is as long as that of a pool with as many references
(src/drivers/kindex.c:2470-2471). -/
def Params.pool (p : Params) : KPool.Params := ⟨p.fmt, p.nBuckets⟩

/-- The writes of a commit before the only sync (src/drivers/kindex.c:2321-2797), and those after
it (2798-2805). -/
def phases (c : Codec K V S) (p : Params) (x : Ix S) (sorted : List (Entry K V)) (extras : Extras)
    (flags : Nat) : Out (List Write × List Write) :=
  (saveBuckets c p x.file sorted.length sorted x.file.len).bind fun r =>
    let e := extraWrites extras (endOf x.file.len r.1)
    .ok (r.1 ++ e.1 ++ tableWrites p.fmt r.2.1, headWrites e.2 flags (x.nKeys + r.2.2))

/-- What a commit that succeeds does. -/
def commitActs (body head : List Write) : List Act :=
  .saveRollback :: (body.map .write ++ .sync :: head.map .write ++ [.unlock, .removeRollback])

/-- What a commit that fails does: some writes at the end of the file, and then the rollback
(src/drivers/kindex.c:2495-2517). -/
def failedActs (ws : List Write) : List Act :=
  .saveRollback :: (ws.map .write ++ [.restoreHead, .restoreLength, .unlock, .removeRollback])

end Kno.KIndex
