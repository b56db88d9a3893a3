import Verif.Batch.BatchModel

/-!
# Running a batch

Models `batchExecutor` (`ledger/pool/batch/batch_executor_impl.go`): the levels one after the other; in an account level up to five workers take the buckets from a channel, and
their steps interleave in any way. The functions that insert a bucket (`pool_batch.go:234-268`, `account_pool.go:382-428`, `snapshot_pool.go` `snapshotInsertItems`) insert its
items in order and stop at the first that fails; whether an item fails is left open. Logging is not modelled. -/

namespace Verif.Batch

/-- A moment in the run of an account level (`insertAccountLevel`, `batch_executor_impl.go:74-134`): the buckets in the channel, the items that are left of the buckets the
workers are at, the number of workers that wait at the channel, the number of workers whose bucket failed and that have not set `globalErr` yet, `globalErr`, and the items
inserted so far. Feeding the channel is not modelled: all buckets are in it from the start. -/
structure Moment where
  queue : List (List Item)
  busy : List (List Item)
  idle : Nat
  failing : Nat
  err : Bool
  done : List Item
deriving Repr, DecidableEq

/-- `maxParallel` (`batch_executor_impl.go:26`). -/
def maxParallel : Nat := 5

/-- One step of one worker (`batch_executor_impl.go:90-106`). -/
inductive Work : Moment → Moment → Prop
  /-- A worker takes a bucket and sees no error. -/
  | take {b q bs n f d} : Work ⟨b :: q, bs, n + 1, f, false, d⟩ ⟨q, b :: bs, n, f, false, d⟩
  /-- A worker takes a bucket, sees the error and leaves. -/
  | leave {b q bs n f d} : Work ⟨b :: q, bs, n + 1, f, true, d⟩ ⟨q, bs, n, f, true, d⟩
  /-- An item is inserted. -/
  | insert {q bs₁ x b bs₂ n f e d} : Work ⟨q, bs₁ ++ (x :: b) :: bs₂, n, f, e, d⟩ ⟨q, bs₁ ++ b :: bs₂, n, f, e, d ++ [x]⟩
  /-- A bucket fails. -/
  | fail {q bs₁ x b bs₂ n f e d} : Work ⟨q, bs₁ ++ (x :: b) :: bs₂, n, f, e, d⟩ ⟨q, bs₁ ++ bs₂, n, f + 1, e, d⟩
  /-- The worker of a bucket that failed sets the error and leaves. -/
  | publish {q bs n f e d} : Work ⟨q, bs, n, f + 1, e, d⟩ ⟨q, bs, n, f, true, d⟩
  /-- A bucket is finished, and the worker waits for the next one. -/
  | finish {q bs₁ bs₂ n f e d} : Work ⟨q, bs₁ ++ [] :: bs₂, n, f, e, d⟩ ⟨q, bs₁ ++ bs₂, n + 1, f, e, d⟩

/-- Any number of steps. -/
inductive Works : Moment → Moment → Prop
  | refl {m} : Works m m
  | step {a b c} : Works a b → Work b c → Works a c

/-- The level at its start: `order` is the order in which the map of buckets is gone through (`level_account.go:15-20`), which is any. -/
def startLevel (order : List (List Item)) : Moment := ⟨order, [], min order.length maxParallel, 0, false, []⟩

/-- `wg.Wait()` returns (`batch_executor_impl.go:117`): every worker has left; a worker that waits leaves when the channel is empty. -/
def Moment.over (m : Moment) : Prop := m.busy = [] ∧ m.failing = 0 ∧ (m.queue = [] ∨ m.idle = 0)

/-- What a run of a batch has come to: it is under way, it is through, or it has ended with an error. -/
inductive End where
  | under
  | through
  | failed
deriving Repr, DecidableEq

/-- The runs of a list of levels (`execute`, `batch_executor_impl.go:31-45`), at any moment: the items inserted so far, in order. -/
inductive Run : List Level → List Item → End → Prop
  | nil : Run [] [] .through
  | start {ls} : Run ls [] .under
  /-- `insertSnapshotLevel` (`:54-73`) is at some item of the first bucket, or has failed there. -/
  | snapPart {l ls o b bs e} : l.snap = true → l.bs = (o, b) :: bs → ∀ n, e ≠ .through → Run (l :: ls) (b.take n) e
  /-- The first bucket of a snapshot level is inserted. -/
  | snapAll {l ls o b bs t e} : l.snap = true → l.bs = (o, b) :: bs → Run ls t e → Run (l :: ls) (b ++ t) e
  /-- An account level is under way. -/
  | accPart {l ls order m} : l.snap = false → order.Perm (l.bs.map (·.2)) → Works (startLevel order) m → Run (l :: ls) m.done .under
  /-- An account level has failed. -/
  | accFail {l ls order m} : l.snap = false → order.Perm (l.bs.map (·.2)) → Works (startLevel order) m → m.over → m.err = true → Run (l :: ls) m.done .failed
  /-- An account level is through. -/
  | accAll {l ls order m t e} : l.snap = false → order.Perm (l.bs.map (·.2)) → Works (startLevel order) m → m.over → m.err = false → Run ls t e → Run (l :: ls) (m.done ++ t) e

end Verif.Batch
