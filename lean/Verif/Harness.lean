import Verif.Zip
import Verif.Tar
import Verif.Checker
/-!
# The test harness: counterSaveConsumer and RunExtractorText (checker/countersaveconsumer.go, checker/extractortester.go)
-/

namespace Savior

/-- A test's `shouldSave` (checker/extractortester.go:19), called with no argument: any function with a state. -/
structure Asker where
  St : Type
  ask : St → Bool × St

/-- `counterSaveConsumer` (checker/countersaveconsumer.go:9-14) with the variables its `onSave` captures: the bytes counted since
the last save, the state of the test's `shouldSave`, and `c` (checker/extractortester.go:24), the checkpoint kept. -/
structure HSt (X : Type) where
  c : Int
  ask : X
  kept : Option ECkpt

/-- `NewTestSaveConsumer` with the `onSave` of `RunExtractorText` (checker/countersaveconsumer.go:25-37,
checker/extractortester.go:27-38). The checkpoint kept went through gob and back (checker/extractortester.go:29), which gives
an equal one (C85); the counter is not a machine integer here. -/
def testCons (threshold : Int) (Q : Asker) : SaveCons where
  St := HSt Q.St
  shouldSave n u := (decide (u.c + n > threshold), { u with c := u.c + n })
  save ck u :=
    let q := Q.ask u.ask
    if q.1 then (.ok .stop, ⟨0, q.2, some ck⟩) else (.ok .cont, ⟨0, q.2, u.kept⟩)

/-- How a test ends: it passes, `Validate` complains, the extraction fails, or there were too many resumes. -/
inductive Verdict
  | pass
  | invalid
  | failed (e : Err)
  | tooMany
  deriving DecidableEq, Repr

/-- The loop of `RunExtractorText` (checker/extractortester.go:68-106), with `left` resumes to go before it gives up. `run` makes a
new extractor and calls its `Resume` (the number is that of the runs to come, so that each may see a different environment). The
sink object and the consumer are those of the run before. -/
def harnessLoop {X : Type} (run : Nat → Option ECkpt → CSt → HSt X → Except Err (List Entry) × CSt × HSt X) : Nat → CSt → HSt X → Verdict
  | 0, _, _ => .tooMany
  | left + 1, k, u =>
    let r := run left u.kept k u
    match r.1 with
    | .error e => if e.cause = .stop then harnessLoop run left r.2.1 r.2.2 else .failed e
    | .ok _ => if cValidate r.2.1 then .pass else .invalid

/-- `RunExtractorText` (checker/extractortester.go:23-109): `maxResumes` is 128, and one more run is made. -/
def harness {X : Type} (run : Nat → Option ECkpt → CSt → HSt X → Except Err (List Entry) × CSt × HSt X) (sink : CSt) (x : X) : Verdict :=
  harnessLoop run 129 (cReset sink) ⟨0, x, none⟩

/-- With a zip extractor (zipextractor/zipextractor_test.go:29). -/
def zipTestRun (A : Archive) (envs : Nat → ZEnv) (D : Decomp) (F : Nat) (threshold : Int) (Q : Asker) (n : Nat) (ck : Option ECkpt) (k : CSt) (u : HSt Q.St) :
    Except Err (List Entry) × CSt × HSt Q.St :=
  let r := zipResume A (envs n) D F checkSink (testCons threshold Q) ck k u
  (r.1, r.2.sink, r.2.cons)

/-- With a tar extractor, over a new source for each run (tarextractor/tarextractor_test.go:49). -/
def tarTestRun {S : SourceM} (T : TarFmt) (pr : Ckpt → Int × Int) (F : Nat) (srcs : Nat → S.St) (threshold : Int) (Q : Asker) (n : Nat) (ck : Option ECkpt) (k : CSt)
    (u : HSt Q.St) : Except Err (List Entry) × CSt × HSt Q.St :=
  let r := tarResume S T pr F checkSink (testCons threshold Q) ck (srcs n) k u
  (r.1, r.2.2.sink, r.2.2.cons)

end Savior
