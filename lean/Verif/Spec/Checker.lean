import Verif.Checker
import Verif.Spec.PathSink
/-!
# What happened at a checking sink, read off the calls and their results
-/

namespace Savior

/-- A history: the calls and what they returned, oldest first. -/
abbrev CTrace := List (COp × CRes)

/-- The entries successfully opened, in order: writer number `k` is the `k`th. -/
def cOpened (tr : CTrace) : List Entry := tr.filterMap fun x => match x with
  | (.open_ e, (_, none)) => some e
  | _ => none

/-- How many bytes writer `k` reported written. -/
def cCount (k : Nat) (tr : CTrace) : Nat := (tr.map fun x => match x with
  | (.write j _, (n, _)) => if j = k then n else 0
  | _ => 0).sum

/-- In history `tr`, a `Write` call on a writer for `path` reported byte `b` as written at position `pos` (the write offset
the writer was opened at, plus what that writer reported before, plus the index in the buffer). -/
def CWrote (tr : CTrace) (path : Str) (pos : Int) (b : Byte) : Prop :=
  ∃ (pre post : CTrace) (k : Nat) (bs : List Byte) (n : Nat) (err : Option Err) (e : Entry) (j : Nat), tr = pre ++ (COp.write k bs, (n, err)) :: post ∧ (cOpened pre)[k]? = some e ∧ e.path = path ∧
    j < n ∧ bs[j]? = some b ∧ pos = e.woff + (cCount k pre : Int) + (j : Int)

/-- How far wholly accepted writes to `path` reached in history `tr`: `Write` returned no error, on a writer for `path`, and
ended at position `m`. -/
def CReached (tr : CTrace) (path : Str) (m : Int) : Prop :=
  ∃ (pre post : CTrace) (k : Nat) (bs : List Byte) (n : Nat) (e : Entry), tr = pre ++ (COp.write k bs, (n, none)) :: post ∧ (cOpened pre)[k]? = some e ∧ e.path = path ∧
    m = e.woff + (cCount k pre : Int) + (n : Int)

/-- In history `tr`, a `Write` on a writer for `path` started at position `m`. -/
def CBegan (tr : CTrace) (path : Str) (m : Int) : Prop :=
  ∃ (pre post : CTrace) (k : Nat) (bs : List Byte) (r : CRes) (e : Entry), tr = pre ++ (COp.write k bs, r) :: post ∧ (cOpened pre)[k]? = some e ∧ e.path = path ∧
    m = e.woff + (cCount k pre : Int)

/-- No writer was ever opened beyond what had already been reached: at 0, or no further than the end of some wholly
accepted earlier write to the same path. -/
def CNoGaps (tr : CTrace) : Prop :=
  ∀ pre post e n, tr = pre ++ (COp.open_ e, (n, none)) :: post → e.woff = 0 ∨ ∃ m, CReached pre e.path m ∧ e.woff ≤ m

/-- What an item says its path should be. -/
def CItem.node (it : CItem) : PNode :=
  match it.kind with
  | .dir => .dir
  | .symlink => .link it.link
  | .file => .file it.data

/-- What was accepted agrees with the item, as far as it goes: a directory, the right target, or a beginning of the content. -/
def CItem.admits (it : CItem) : PNode → Prop
  | .dir => it.kind = .dir
  | .link t => it.kind = .symlink ∧ it.link = t
  | .file c => it.kind = .file ∧ c <+: it.data

end Savior
